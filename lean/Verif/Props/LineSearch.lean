import Verif.Proofs.WolfeLine
import Verif.Props.LbfgsWitness
import Mathlib.Analysis.Calculus.Deriv.Pow
import Mathlib.Analysis.Convex.Deriv
/-!
# C58: the line search of L-BFGS returns a step that meets the Wolfe conditions
-/
namespace Fiksi

open Spec FloatOps

/-! ## The objective along a line, from the residuals alone -/

/-- Residual number `c` at the values `y`. -/
noncomputable def Problem.residualAt (p : Problem ℝ) (y : List ℝ) (c : Nat) : ℝ :=
  match p.residuals y with
  | .ok r => r.getD c 0
  | .error _ => 0

/-- The sum of the squared residuals at `x + t d`. -/
noncomputable def Problem.phi (p : Problem ℝ) (x d : List ℝ) (t : ℝ) : ℝ :=
  ∑ c ∈ Finset.range p.numResiduals, p.residualAt (List.zipWith (fun a b => a + t * b) x d) c ^ 2

/-- Everywhere on the line, the dense Jacobian times the direction gives the derivatives of the residuals along the line. (The Jacobian is
written into a buffer that was zero at first and is used again for each evaluation.) -/
def Problem.DiffAlong (p : Problem ℝ) (x d : List ℝ) : Prop :=
  ∀ t rs jac r j, rs.length = p.numResiduals → jac.length = p.numResiduals * p.numVariables → p.Buffer jac →
    p.denseJacobian (List.zipWith (fun a b => a + t * b) x d) rs jac = .ok (r, j) →
    ∀ c < p.numResiduals, HasDerivAt (fun s => p.residualAt (List.zipWith (fun a b => a + s * b) x d) c)
      (∑ k ∈ Finset.range p.numVariables, j.getD (c * p.numVariables + k) 0 * d.getD k 0) t

theorem Problem.residualAt_of {p : Problem ℝ} {y r : List ℝ} (h : p.residuals y = .ok r) (c : Nat) : p.residualAt y c = r.getD c 0 := by
  rw [Problem.residualAt, h]

theorem Problem.DiffAlong.hasDerivAt {p : Problem ℝ} {x d : List ℝ} (h : p.DiffAlong x d) {t : ℝ} {rs jac r j : List ℝ}
    (h1 : rs.length = p.numResiduals) (h2 : jac.length = p.numResiduals * p.numVariables) (h3 : p.Buffer jac)
    (h4 : p.denseJacobian (along x d t) rs jac = .ok (r, j)) (h5 : p.residuals (along x d t) = .ok r) :
    HasDerivAt (p.phi x d) (2 * ∑ c ∈ Finset.range p.numResiduals, r.getD c 0 *
      ∑ k ∈ Finset.range p.numVariables, j.getD (c * p.numVariables + k) 0 * d.getD k 0) t := by
  have key : HasDerivAt (fun t => ∑ c ∈ Finset.range p.numResiduals, p.residualAt (List.zipWith (fun a b => a + t * b) x d) c ^ 2)
      (∑ c ∈ Finset.range p.numResiduals, 2 * (r.getD c 0 *
        ∑ k ∈ Finset.range p.numVariables, j.getD (c * p.numVariables + k) 0 * d.getD k 0)) t := by
    refine HasDerivAt.fun_sum (fun c hc => ?_)
    have := (h t rs jac r j h1 h2 h3 h4 c (Finset.mem_range.1 hc)).pow 2
    refine this.congr_deriv ?_
    rw [show p.residualAt (List.zipWith (fun a b => a + t * b) x d) c = r.getD c 0 from Problem.residualAt_of h5 c]
    norm_num
    ring
  rw [Finset.mul_sum]
  exact key

/-- The line as the search sees it: it works with half the derivative. -/
theorem Problem.DiffAlong.line {p : Problem ℝ} (hp : p.DenseOk) {x d : List ℝ} (hx : x.length = p.numVariables)
    (hd : d.length = p.numVariables) (h : p.DiffAlong x d) : p.Line x d (p.phi x d) (fun t => deriv (p.phi x d) t / 2) := by
  intro t rs jac h1 h2 h3
  obtain ⟨r, j, h4, h5, h6, h7⟩ := hp (along x d t) rs jac (by simp [along, hx, hd]) h1 h2
  refine ⟨r, j, h4, h5, h6, h7, ?_, ?_⟩
  · refine Finset.sum_congr rfl (fun c _ => ?_)
    rw [show p.residualAt (List.zipWith (fun a b => a + t * b) x d) c = r.getD c 0 from Problem.residualAt_of h5 c]
  · simp only [(h.hasDerivAt h1 h2 h3 h4 h5).deriv]
    ring

theorem along_zero {x d : List ℝ} (h : x.length = d.length) : along x d 0 = x := by
  apply List.ext_getElem
  · simp [along, h]
  · intro i h1 h2
    simp [along]

theorem EvalState.Starts.values {p : Problem ℝ} {x d : List ℝ} {st : EvalState ℝ} {φ ψ : ℝ → ℝ} (h : st.Starts p x)
    (hx : x.length = p.numVariables) (hd : d.length = p.numVariables) (hl : p.Line x d φ ψ) :
    st.Fresh p ∧ sumSquares st.residuals = φ 0 ∧ dot st.gradient d = ψ 0 := by
  obtain ⟨rs, jac, h1, h2, h3, h4⟩ := h.jacobian
  obtain ⟨r, j, g1, g2, g3, g4, g5, g6⟩ := hl 0 rs jac h1 h2 h3
  rw [along_zero (by rw [hx, hd]), h4] at g1
  cases g1
  refine ⟨h.fresh hx, ?_, ?_⟩
  · rw [sumSquares_range, g3, g5]
  · rw [dot_gradient (by rw [g4, g3]) h.gradient hd, g3, g6]

/-! ## The theorems -/

/-- C58: what an evaluation reports as `ϕ` is the sum of the squared residuals at the step, and what it reports as `ϕ'` is half the
derivative of that. (The documentation of `Param` says it is the derivative. The conditions tested are then the Wolfe conditions with
`δ = 1/20000` instead of `1/10000`.) -/
theorem C58_slope {p : Problem ℝ} (hp : p.DenseOk) {x d : List ℝ} (hx : x.length = p.numVariables) (hd : d.length = p.numVariables)
    (h : p.DiffAlong x d) {st : EvalState ℝ} (hst : st.Starts p x) (t : ℝ) :
    ∃ c st', calculatePhi p x d st t = .ok (c, st') ∧ c.p = t ∧ c.phi = p.phi x d t ∧ HasDerivAt (p.phi x d) (2 * c.dphi) t := by
  have hl := h.line hp hx hd
  obtain ⟨hf, -, -⟩ := hst.values hx hd hl
  obtain ⟨st', h1, h2⟩ := hl.eval hx hd hf t
  refine ⟨_, st', h1, rfl, rfl, ?_⟩
  obtain ⟨r, j, h4, h5, h6, h7⟩ := hp (along x d t) st.residuals st.jacobian (by simp [along, hx, hd]) hf.sized.residuals hf.sized.jacobian
  have hD := h.hasDerivAt hf.sized.residuals hf.sized.jacobian hf.buffer h4 h5
  have : 2 * (pt (p.phi x d) (fun t => deriv (p.phi x d) t / 2) t).dphi = deriv (p.phi x d) t := by simp only [pt]; ring
  rw [this, hD.deriv]
  exact hD

/-- The conditions of the property, for the objective along the line and its derivative. -/
def GoodStep (p : Problem ℝ) (x d : List ℝ) (t : ℝ) : Prop :=
  Wolfe (p.phi x d) (deriv (p.phi x d)) (1 / 20000) (9 / 10) t ∨
  ApproxWolfe (p.phi x d) (deriv (p.phi x d)) (1 / 10000) (9 / 10) (1 / 10 ^ 6) t

theorem goodStep_iff {p : Problem ℝ} {x d : List ℝ} {t : ℝ} :
    GoodStep p x d t ↔ Accepted (p.phi x d) (fun t => deriv (p.phi x d) t / 2) t := by
  have e : (fun s => 2 * (deriv (p.phi x d) s / 2)) = deriv (p.phi x d) := by funext s; ring
  rw [GoodStep, Accepted, e]

/-- C58 (partial): the search returns, if the objective is tame along the line on `[0, 5]`: continuous, and to the right of every point either
with slopes that are not negative or not increasing. (Full statement: it returns for every problem. Missing: objectives that jump. There the
bisection in `update` can go on for ever; see also `C52_lbfgs_nan_never_returns`.) -/
theorem C58_returns_partial {p : Problem ℝ} (hp : p.DenseOk) {x d : List ℝ} (hx : x.length = p.numVariables) (hd : d.length = p.numVariables)
    (h : p.DiffAlong x d) {st : EvalState ℝ} (hst : st.Starts p x) (ht : Tame (p.phi x d) (deriv (p.phi x d)) 0 5) :
    ∃ k c st', ∀ fuel, k ≤ fuel → lineSearch p x d (sumSquares st.residuals) fuel st = .ok (c, st') := by
  have hl := h.line hp hx hd
  obtain ⟨hf, h1, h2⟩ := hst.values hx hd hl
  have ht' : Tame (p.phi x d) (fun t => deriv (p.phi x d) t / 2) 0 5 := by
    refine ⟨ht.cont, fun t hm => ?_⟩
    obtain ⟨s, hs, h3⟩ := ht.side t hm
    refine ⟨s, hs, h3.imp (fun h3 u hu => ?_) id⟩
    have := h3 u hu
    linarith
  obtain ⟨⟨c, st'⟩, -, k, hk⟩ := lineSearch_returns hl hx hd hf h2 ht'
  rw [h1]
  exact ⟨k, c, st', hk⟩

/-- C58 (partial): if the objective is convex along the line on `[0, 5]`, starts downwards, has its minimum before 5, and its slope does not
change too fast, the search returns a step that meets the Wolfe conditions. (Full statement: the step always meets them. False, see
`C58_wolfe_fails`. The limit on the change of the slope is because the search ends after 100 rounds: `5 · 0.66 ^ 100 < 10 ^ (-17)`.) -/
theorem C58_convex_partial {p : Problem ℝ} (hp : p.DenseOk) {x d : List ℝ} (hx : x.length = p.numVariables) (hd : d.length = p.numVariables)
    (h : p.DiffAlong x d) {st : EvalState ℝ} (hst : st.Starts p x) (hc : ConvexOn ℝ (Set.Icc 0 5) (p.phi x d))
    (h0 : deriv (p.phi x d) 0 < 0) (h5 : 0 ≤ deriv (p.phi x d) 5) {K : ℝ}
    (hlip : ∀ s t, 0 ≤ s → s ≤ t → t ≤ 5 → deriv (p.phi x d) t - deriv (p.phi x d) s ≤ K * (t - s))
    (hK : K * (5 * (66 / 100) ^ 100) ≤ 9 / 10 * -deriv (p.phi x d) 0) (fuel : Nat) :
    ∃ c st', lineSearch p x d (sumSquares st.residuals) fuel st = .ok (c, st') ∧ GoodStep p x d c.p := by
  have hl := h.line hp hx hd
  obtain ⟨hf, h1, h2⟩ := hst.values hx hd hl
  have hder : ∀ t, HasDerivAt (p.phi x d) (deriv (p.phi x d) t) t := by
    intro t
    obtain ⟨r, j, h4, h5, h6, h7⟩ := hp (along x d t) st.residuals st.jacobian (by simp [along, hx, hd]) hf.sized.residuals hf.sized.jacobian
    exact (h.hasDerivAt hf.sized.residuals hf.sized.jacobian hf.buffer h4 h5).differentiableAt.hasDerivAt
  have hdown : ∀ t, 0 ≤ t → t ≤ 5 → (fun t => deriv (p.phi x d) t / 2) t ≤ 0 → p.phi x d t ≤ p.phi x d 0 := by
    intro t g1 g2 g3
    rcases g1.eq_or_lt with rfl | g1
    · exact le_rfl
    have g4 := hc.slope_le_of_hasDerivAt ⟨le_rfl, by norm_num⟩ ⟨g1.le, g2⟩ g1 (hder t)
    simp only at g3
    rw [slope_def_field, div_le_iff₀ (by linarith)] at g4
    nlinarith
  have hK0 : 0 ≤ K := by
    have := hlip 0 5 le_rfl (by norm_num) le_rfl
    linarith
  obtain ⟨t, st', g1, g2⟩ := lineSearch_convex hl hx hd hdown (by linarith) (by linarith) (K := K / 2) (by linarith)
    (fun s t a1 a2 a3 => by have := hlip s t a1 a2 a3; linarith) (by linarith) fuel hf h2
  rw [h1]
  exact ⟨_, st', g1, goodStep_iff.2 g2⟩

/-- C58: if the residuals are affine along the line (as for all constraints that are linear in the free variables) and the line goes
downwards, the search returns at once, with a step that meets the Wolfe conditions: either 1, or the minimum of the objective along the line,
however far it is. -/
theorem C58_affine {p : Problem ℝ} (hp : p.DenseOk) {x d : List ℝ} (hx : x.length = p.numVariables) (hd : d.length = p.numVariables)
    (h : p.DiffAlong x d) {st : EvalState ℝ} (hst : st.Starts p x) {α β : Nat → ℝ}
    (haff : ∀ t, ∀ c < p.numResiduals, p.residualAt (List.zipWith (fun a b => a + t * b) x d) c = α c + t * β c)
    (hdown : deriv (p.phi x d) 0 < 0) (fuel : Nat) :
    ∃ c st', lineSearch p x d (sumSquares st.residuals) fuel st = .ok (c, st') ∧ GoodStep p x d c.p ∧
      (c.p = 1 ∨ ∀ t, p.phi x d c.p ≤ p.phi x d t) := by
  have hl := h.line hp hx hd
  obtain ⟨hf, h1, h2⟩ := hst.values hx hd hl
  obtain ⟨A, hA⟩ : ∃ A, A = ∑ c ∈ Finset.range p.numResiduals, β c ^ 2 := ⟨_, rfl⟩
  obtain ⟨B, hB⟩ : ∃ B, B = ∑ c ∈ Finset.range p.numResiduals, α c * β c := ⟨_, rfl⟩
  obtain ⟨C, hC⟩ : ∃ C, C = ∑ c ∈ Finset.range p.numResiduals, α c ^ 2 := ⟨_, rfl⟩
  have hφ : ∀ t, p.phi x d t = C + 2 * B * t + A * t ^ 2 := by
    intro t
    rw [Problem.phi, hA, hB, hC, Finset.mul_sum, Finset.sum_mul, Finset.sum_mul, ← Finset.sum_add_distrib, ← Finset.sum_add_distrib]
    refine Finset.sum_congr rfl (fun c hc => ?_)
    rw [haff t c (Finset.mem_range.1 hc)]
    ring
  have hder : ∀ t, deriv (p.phi x d) t = 2 * (B + A * t) := by
    intro t
    have e : p.phi x d = fun t => C + 2 * B * t + A * t ^ 2 := funext hφ
    have := (((hasDerivAt_id t).const_mul (2 * B)).const_add C).add (((hasDerivAt_id t).pow 2).const_mul A)
    rw [e]
    refine HasDerivAt.deriv (this.congr_deriv ?_)
    simp
    ring
  have hBneg : B < 0 := by
    have := hder 0
    linarith
  have hApos : 0 < A := by
    rcases (show 0 ≤ A by rw [hA]; positivity).eq_or_lt with h0 | h0
    · have hz : ∀ c ∈ Finset.range p.numResiduals, β c ^ 2 = 0 := by
        rw [← Finset.sum_eq_zero_iff_of_nonneg (fun c _ => sq_nonneg _), ← hA, h0]
      have : B = 0 := by
        rw [hB]
        refine Finset.sum_eq_zero (fun c hc => ?_)
        rw [pow_eq_zero_iff two_ne_zero |>.1 (hz c hc), mul_zero]
      linarith
    · exact h0
  obtain ⟨st', g1⟩ := lineSearch_quadratic hl hx hd hApos hBneg hφ (fun t => by simp only [hder]; ring) fuel hf h2
  rw [h1]
  refine ⟨_, st', g1, ?_⟩
  have hmin : ∀ t, p.phi x d (-B / A) ≤ p.phi x d t := by
    intro t
    rw [hφ, hφ]
    have : C + 2 * B * t + A * t ^ 2 - (C + 2 * B * (-B / A) + A * (-B / A) ^ 2) = A * (t + B / A) ^ 2 := by
      field_simp
      ring
    have h3 : 0 ≤ A * (t + B / A) ^ 2 := by positivity
    linarith
  by_cases hw : satisfiesWolfe (p.phi x d 0) ((fun t => deriv (p.phi x d) t / 2) 0) (pt (p.phi x d) (fun t => deriv (p.phi x d) t / 2) 1) = true
  · rw [if_pos hw]
    exact ⟨goodStep_iff.2 (satisfiesWolfe_iff.1 hw), .inl rfl⟩
  · rw [if_neg hw]
    refine ⟨.inl ⟨?_, ?_⟩, .inr hmin⟩
    · show p.phi x d (-B / A) ≤ p.phi x d 0 + -B / A * (1 / 20000 * deriv (p.phi x d) 0)
      rw [hφ, hφ, hder]
      have : 0 ≤ B ^ 2 / A := by positivity
      have e1 : A * (-B / A) ^ 2 = B ^ 2 / A := by field_simp
      have e2 : 2 * B * (-B / A) = -2 * (B ^ 2 / A) := by field_simp
      have e3 : -B / A * (1 / 20000 * (2 * (B + A * 0))) = -(1 / 10000) * (B ^ 2 / A) := by field_simp; ring
      rw [e1, e2, e3]
      linarith
    · show 9 / 10 * deriv (p.phi x d) 0 ≤ deriv (p.phi x d) (-B / A)
      rw [hder (-B / A)]
      have e1 : A * (-B / A) = -B := by field_simp
      rw [e1]
      linarith

end Fiksi
