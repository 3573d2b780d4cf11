import Verif.Proofs.LinearModel
import Verif.Proofs.ObjectiveMap
/-!
# The optimisers do not move what no residual depends on

If the residuals do not change when all variables are moved along `ω`, both methods leave the sum of the variables weighted with `ω` as it is.
-/
namespace Fiksi
open Spec Matrix

/-! ## The gradients of the expressions -/

/-- A shift by `(a, b)` of the points an expression is about, in the order of its variables; for an equality of two variables, by `a`. -/
def Expr.shift (a b : ℝ) : Expr ℝ → List ℝ
  | .variableVariableEquality .. => [a, a]
  | .pointPointDistance .. => [a, b, a, b]
  | .pointPointPointAngle .. => [a, b, a, b, a, b]
  | .pointLineIncidence .. => [a, b, a, b, a, b]
  | .pointLineDistance .. => [a, b, a, b, a, b]
  | .pointCircleIncidence .. => [a, b, a, b, 0]
  | .segmentSegmentLengthEquality .. => [a, b, a, b, a, b, a, b]
  | .lineLineAngle .. => [a, b, a, b, a, b, a, b]
  | .lineLineParallelism .. => [a, b, a, b, a, b, a, b]
  | .lineLinePerpendicularity .. => [a, b, a, b, a, b, a, b]
  | .lineCircleTangency .. => [a, b, a, b, a, b, 0]

/-- The weights `w` shift the points of an expression. -/
def Expr.Shifts (e : Expr ℝ) (w : Nat → ℝ) : Prop := ∃ a b, e.variableIndices.map w = e.shift a b

theorem lct_shift (x1 y1 x2 y2 cx cy r a b : ℝ) : (List.zipWith (· * ·) (lctResGrad x1 y1 x2 y2 cx cy r).2 [a, b, a, b, a, b, 0]).sum = 0 := by
  unfold lctResGrad
  simp only [FloatOps.eqB, decide_eq_true_eq]
  split
  · simp
  · rename_i hl
    generalize hL : FloatOps.sqrt ((x1 - x2) * (x1 - x2) + (y1 - y2) * (y1 - y2)) = L at hl
    have hL2 : L * L = (x1 - x2) * (x1 - x2) + (y1 - y2) * (y1 - y2) := by
      rw [← hL]
      exact Real.mul_self_sqrt (add_nonneg (mul_self_nonneg _) (mul_self_nonneg _))
    rw [← hL2]
    simp only [List.zipWith_cons_cons, List.sum_cons, List.zipWith_nil_right, List.sum_nil]
    field_simp
    ring

theorem Expr.gradient_shift {e : Expr ℝ} {vs : List ℝ} {rg : ℝ × List ℝ} (h : e.computeResidualAndGradient vs = .ok rg) (a b : ℝ) :
    (List.zipWith (· * ·) rg.2 (e.shift a b)).sum = 0 := by
  unfold Expr.computeResidualAndGradient at h
  split at h <;> first | (cases h; done) | skip
  all_goals (injection h with h; subst h)
  all_goals first
    | exact lct_shift ..
    | (simp only [Expr.shift, vveResGrad, ppdResGrad, pppaResGrad, pliResGrad, pldResGrad, pciResGrad, ssleResGrad, llaResGrad, llparResGrad, llperpResGrad, List.map_cons, List.map_nil,
        List.cons_append, List.nil_append, List.zipWith_cons_cons, List.sum_cons, List.zipWith_nil_right, List.sum_nil]
       ring)

/-! ## Levenberg–Marquardt -/

namespace Spec.Fitting
variable {P : Fitting} {ω : Nat → ℝ}

/-- The weighted sum. -/
noncomputable def weigh (ω : Nat → ℝ) (n : Nat) (x : List ℝ) : ℝ := ∑ c ∈ Finset.range n, ω c * x.getD c 0

theorem IsStep.balanced {x δ : List ℝ} {lam : ℝ} (hl : lam ≠ 0) (hω : ∀ r < P.m, ∑ c ∈ Finset.range P.n, P.jac x r c * ω c = 0) (h : P.IsStep x lam δ) : weigh ω P.n δ = 0 := by
  have h1 : ∑ c ∈ Finset.range P.n, ω c * ((∑ r ∈ Finset.range P.m, P.jac x r c * ((∑ c' ∈ Finset.range P.n, P.jac x r c' * δ.getD c' 0) + (P.res x).getD r 0)) + lam * δ.getD c 0) = 0 :=
    Finset.sum_eq_zero fun c hc => by rw [h.2 c (Finset.mem_range.1 hc), mul_zero]
  simp only [mul_add, Finset.sum_add_distrib] at h1
  have h2 : ∀ f : Nat → ℝ, ∑ c ∈ Finset.range P.n, ω c * ∑ r ∈ Finset.range P.m, P.jac x r c * f r = 0 := by
    intro f
    simp only [Finset.mul_sum]
    rw [Finset.sum_comm]
    refine Finset.sum_eq_zero fun r hr => ?_
    rw [← zero_mul (f r), ← hω r (Finset.mem_range.1 hr), Finset.sum_mul]
    exact Finset.sum_congr rfl fun c _ => by ring
  rw [h2, h2, zero_add, zero_add] at h1
  have h3 : ∑ c ∈ Finset.range P.n, ω c * (lam * δ.getD c 0) = lam * weigh ω P.n δ := by
    rw [weigh, Finset.mul_sum]
    exact Finset.sum_congr rfl fun c _ => by ring
  rw [h3] at h1
  exact (mul_eq_zero.1 h1).resolve_left hl

theorem Search.isStep {x δ : List ℝ} {lam μ : ℝ} (hl : 0 < lam) (h : P.Search x lam μ δ) : 0 < μ ∧ P.IsStep x μ δ := by
  induction h with
  | found h1 _ => exact ⟨hl, h1⟩
  | doubled _ _ _ _ ih => exact ih (by linarith)

theorem weigh_add {n : Nat} {x δ : List ℝ} (hx : x.length = n) (hδ : δ.length = n) : weigh ω n (add x δ) = weigh ω n x + weigh ω n δ := by
  rw [weigh, weigh, weigh, ← Finset.sum_add_distrib]
  refine Finset.sum_congr rfl fun c hc => ?_
  have hc := Finset.mem_range.1 hc
  rw [← mul_add, add, List.getD_eq_getElem?_getD, List.getElem?_zipWith, List.getElem?_eq_getElem (show c < x.length by omega), List.getElem?_eq_getElem (show c < δ.length by omega)]
  simp only [Option.getD_some, List.getD_eq_getElem?_getD, List.getElem?_eq_getElem (show c < x.length by omega), List.getElem?_eq_getElem (show c < δ.length by omega)]

theorem Run.balanced (hω : ∀ x, x.length = P.n → ∀ r < P.m, ∑ c ∈ Finset.range P.n, P.jac x r c * ω c = 0) {k : Nat} {x z : List ℝ} {lam : ℝ} (hx : x.length = P.n) (hl : 0 < lam)
    (h : P.Run k x lam z) : z.length = P.n ∧ weigh ω P.n z = weigh ω P.n x := by
  have one : ∀ {x δ : List ℝ} {lam μ : ℝ}, x.length = P.n → 0 < lam → P.Search x lam μ δ → (add x δ).length = P.n ∧ weigh ω P.n (add x δ) = weigh ω P.n x ∧ 0 < μ := by
    intro x δ lam μ hx hl h
    obtain ⟨h1, h2⟩ := h.isStep hl
    refine ⟨by simp [add, hx, h2.1], ?_, h1⟩
    rw [weigh_add hx h2.1, h2.balanced h1.ne' (hω x hx), add_zero]
  induction h with
  | spent => exact ⟨hx, rfl⟩
  | solved _ => exact ⟨hx, rfl⟩
  | tiny _ _ _ => exact ⟨hx, rfl⟩
  | stalled _ h2 _ _ =>
    obtain ⟨h3, h4, -⟩ := one hx hl h2
    exact ⟨h3, h4⟩
  | step _ h2 _ _ _ ih =>
    obtain ⟨h3, h4, h5⟩ := one hx hl h2
    obtain ⟨h6, h7⟩ := ih h3 (lt_of_lt_of_le (by positivity) (le_max_left ..))
    exact ⟨h6, h7.trans h4⟩

end Spec.Fitting

/-! ## L-BFGS -/

section
variable {n : Nat} {ω : Fin n → ℝ}

theorem bfgsMatrix_balanced (γ : ℝ) (cs : List (Pair n)) (hcs : ∀ c ∈ cs, ω ⬝ᵥ c.s = 0 ∧ ω ⬝ᵥ c.y = 0) : ω ᵥ* bfgsMatrix γ cs = γ • ω := by
  have key : ∀ (cs : List (Pair n)) (H : Matrix (Fin n) (Fin n) ℝ), (∀ c ∈ cs, ω ⬝ᵥ c.s = 0 ∧ ω ⬝ᵥ c.y = 0) → ω ᵥ* H = γ • ω → ω ᵥ* cs.foldl bfgsUpdate H = γ • ω := by
    intro cs
    induction cs with
    | nil => intro H _ h; exact h
    | cons c cs ih =>
      intro H hcs h
      refine ih _ (fun c hc => hcs c (by simp [hc])) ?_
      obtain ⟨h1, h2⟩ := hcs c (by simp)
      have one : ∀ u v : Fin n → ℝ, ω ⬝ᵥ u = 0 → ω ᵥ* (1 - c.rho • vecMulVec u v) = ω := by
        intro u v hu
        rw [Matrix.vecMul_sub, Matrix.vecMul_one, Matrix.vecMul_smul, Matrix.vecMul_vecMulVec, hu, zero_smul, smul_zero, sub_zero]
      rw [bfgsUpdate, Matrix.vecMul_add, ← Matrix.vecMul_vecMul, ← Matrix.vecMul_vecMul, one _ _ h1, h, Matrix.smul_vecMul, one _ _ h2, Matrix.vecMul_smul,
        Matrix.vecMul_vecMulVec, h1, zero_smul, smul_zero, add_zero]
  refine key cs _ hcs ?_
  rw [Matrix.vecMul_smul, Matrix.vecMul_one]

theorem Spec.Objective.Lbfgs.balanced {P : Objective n} (hω : ∀ x, ω ⬝ᵥ P.grad x = 0) {x z : Fin n → ℝ} (h : P.Lbfgs x z) : ω ⬝ᵥ z = ω ⬝ᵥ x := by
  have dir : ∀ cs x, (∀ c ∈ cs, ω ⬝ᵥ Pair.s c = 0 ∧ ω ⬝ᵥ Pair.y c = 0) → ω ⬝ᵥ P.direction cs x = 0 := by
    intro cs x hcs
    rw [Objective.direction, dotProduct_neg, Matrix.dotProduct_mulVec, bfgsMatrix_balanced _ _ (fun c hc => hcs c ?_), smul_dotProduct, hω, smul_zero, neg_zero]
    unfold Objective.counting at hc
    split at hc
    · exact List.mem_of_mem_take hc
    · exact List.mem_of_mem_drop hc
  have move : ∀ cs x (t : ℝ), (∀ c ∈ cs, ω ⬝ᵥ Pair.s c = 0 ∧ ω ⬝ᵥ Pair.y c = 0) → ω ⬝ᵥ (x + t • P.direction cs x) = ω ⬝ᵥ x := by
    intro cs x t hcs
    rw [dotProduct_add, dotProduct_smul, dir cs x hcs, smul_zero, add_zero]
  have steps : ∀ k cs x z, P.Steps k cs x z → (∀ c ∈ cs, ω ⬝ᵥ Pair.s c = 0 ∧ ω ⬝ᵥ Pair.y c = 0) → ω ⬝ᵥ z = ω ⬝ᵥ x := by
    intro k cs x z h
    induction h with
    | spent => intro _; rfl
    | last _ _ => intro hcs; exact move _ _ _ hcs
    | step _ _ _ ih =>
      intro hcs
      rw [ih fun c hc => ?_, move _ _ _ hcs]
      rw [List.mem_append, List.mem_singleton] at hc
      rcases hc with hc | rfl
      · exact hcs c hc
      · refine ⟨?_, ?_⟩
        · show ω ⬝ᵥ (_ - _) = 0
          rw [dotProduct_sub, move _ _ _ hcs, sub_self]
        · show ω ⬝ᵥ (_ - _) = 0
          rw [dotProduct_sub, hω, hω, sub_self]
  cases h with
  | small _ => rfl
  | steps _ h => exact steps _ _ _ _ h (by simp)

end

/-! ## Subproblems -/

/-- The Jacobian of a subproblem applied to weights that shift the points of each expression. -/
theorem Subsystem.Ok.balanced {sub : Subsystem ℝ} (hok : sub.Ok) : ∃ P : Fitting, sub.problem.Computes P sub.pattern ∧ P.m = sub.expressions.length ∧ P.n = sub.freeVariables.length ∧
    ∀ w : Nat → ℝ, (∀ id ∈ sub.expressions, ∀ e, sub.allExpressions[id]? = some e → e.Shifts w ∧ ∀ v ∈ e.variableIndices, v ∉ sub.freeVariables → w v = 0) →
      ∀ x, x.length = P.n → ∀ r < P.m, ∑ c ∈ Finset.range P.n, P.jac x r c * w (sub.freeVariables.getD c 0) = 0 := by
  obtain ⟨P, h1, -, -, h3⟩ := hok.fitting_rows
  have hm : P.m = sub.expressions.length := h1.rows.symm
  have hn : P.n = sub.freeVariables.length := h1.columns.symm
  refine ⟨P, h1, hm, hn, fun w hw x hx r hr => ?_⟩
  rw [hm] at hr
  have hid := List.getElem?_eq_getElem hr
  generalize sub.expressions[r] = id at hid
  obtain ⟨e, he, hv⟩ := hok id (List.mem_of_getElem? hid)
  obtain ⟨rg, h4, h5, -⟩ := rowData_total (hx.trans hn) he hv
  obtain ⟨-, h7⟩ := h3 x (hx.trans hn) r id _ hid h5
  obtain ⟨⟨a, b, hs⟩, hz⟩ := hw id (List.mem_of_getElem? hid) e he
  have h8 : ∀ c ∈ Finset.range sub.freeVariables.length, P.jac x r c * w (sub.freeVariables.getD c 0) = P.jac x r c * (sub.freeVariables.map w).getD c 0 := by
    intro c hc
    have hc := Finset.mem_range.1 hc
    simp [List.getD_eq_getElem?_getD, List.getElem?_eq_getElem hc]
  rw [hn, Finset.sum_congr rfl h8]
  simp only [h7]
  rw [slot_sum (sub.freeVariables.map w) _ (fun p hp y i hpi => ?_), varOf_change, ← List.length_map (f := changeOf sub.freeVariables (sub.freeVariables.map w)), zipWith_take_length]
  · rw [← Expr.gradient_shift h4 a b, ← hs]
    congr 2
    refine List.map_congr_left fun v hv' => ?_
    unfold changeOf
    split
    · rename_i k hk
      obtain ⟨hlt, h9, -⟩ := List.idxOf?_eq_some_iff.1 hk
      simp [List.getD_eq_getElem?_getD, List.getElem?_eq_getElem hlt, h9]
    · rename_i hk
      exact (hz v hv' (List.idxOf?_eq_none_iff.1 hk)).symm
  · obtain ⟨hp1, -⟩ := List.of_mem_zip hp
    obtain ⟨v, -, h8⟩ := List.mem_map.1 hp1
    rw [hpi] at h8
    unfold Subsystem.varOf at h8
    split at h8
    · rename_i k hk
      cases h8
      exact (List.idxOf?_eq_some_iff.1 hk).1
    · cases h8

/-- The optimisers of the crate leave the weighted sum of the free variables as it is. -/
theorem crateOptimize_balanced {S : Nat → Nat → Nat → Prop} {ls : LeastSquares ℝ} (hls : ls.Exact S) {fuel : Nat} {o : Optimizer} {sub : Subsystem ℝ} (hok : sub.Ok) (hpl : o = .lBfgs → sub.Plain)
    (hS : S sub.expressions.length sub.freeVariables.length (sub.pattern.length + sub.freeVariables.length)) {w : Nat → ℝ}
    (hw : ∀ id ∈ sub.expressions, ∀ e, sub.allExpressions[id]? = some e → e.Shifts w ∧ ∀ v ∈ e.variableIndices, v ∉ sub.freeVariables → w v = 0) {x x' : List ℝ}
    (hx : x.length = sub.freeVariables.length) (h : crateOptimize ls fuel o sub.problem x = .ok x') :
    ∑ c ∈ Finset.range sub.freeVariables.length, w (sub.freeVariables.getD c 0) * x'.getD c 0 = ∑ c ∈ Finset.range sub.freeVariables.length, w (sub.freeVariables.getD c 0) * x.getD c 0 := by
  obtain ⟨P, h1, hm, hn, h2⟩ := hok.balanced
  have h3 := h2 w hw
  cases o with
  | levenbergMarquardt =>
    have h4 := C66_lm_is_method h1 hls (by rw [hm, hn]; exact hS) (hx.trans hn.symm) h
    have h5 := (h4.balanced h3 (hx.trans hn.symm) (by norm_num)).2
    rw [hn] at h5
    exact h5
  | lBfgs =>
    have h4 := (C67_lbfgs_is_method (hok.evaluates (hpl rfl) h1) hx h).2
    have h5 := h4.balanced (ω := fun c => w (sub.freeVariables.getD c 0)) (fun u => ?_)
    · simp only [dotProduct, vec] at h5
      rw [Fin.sum_univ_eq_sum_range (fun c => w (sub.freeVariables.getD c 0) * x'.getD c 0), Fin.sum_univ_eq_sum_range (fun c => w (sub.freeVariables.getD c 0) * x.getD c 0)] at h5
      exact h5
    · have hN : sub.problem.numVariables = P.n := hn.symm
      simp only [dotProduct, Fitting.objective, Finset.mul_sum]
      rw [Finset.sum_comm]
      refine Finset.sum_eq_zero fun r hr => ?_
      rw [Fin.sum_univ_eq_sum_range (fun c => w (sub.freeVariables.getD c 0) * (P.jac (List.ofFn u) r c * (P.res (List.ofFn u)).getD r 0))]
      have h6 := h3 (List.ofFn u) (by rw [List.length_ofFn, hN]) r (Finset.mem_range.1 hr)
      generalize (P.res (List.ofFn u)).getD r 0 = ρ
      generalize List.ofFn u = U at h6
      rw [hN]
      calc _ = (∑ c ∈ Finset.range P.n, P.jac U r c * w (sub.freeVariables.getD c 0)) * ρ := by
            rw [Finset.sum_mul]
            exact Finset.sum_congr rfl fun c _ => by ring
        _ = 0 := by rw [h6, zero_mul]

end Fiksi
