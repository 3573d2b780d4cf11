import Verif.Props.Gradient
import Verif.Proofs.WolfeLine
import Mathlib.Analysis.SpecialFunctions.Complex.Analytic
import Mathlib.Analysis.SpecialFunctions.Sqrt
import Mathlib.Analysis.Analytic.IsolatedZeros
import Mathlib.Analysis.Calculus.FDeriv.Analytic
import Mathlib.Analysis.Calculus.Deriv.MeanValue
/-!
# Analytic objectives

The residuals are analytic where they are smooth.
-/
namespace Fiksi

open Spec Complex

/-- The residual for given values of the arguments. -/
noncomputable def Expr.residualOf (e : Expr ℝ) (vs : List ℝ) : ℝ :=
  match e.computeResidualAndGradient vs with
  | .ok rg => rg.1
  | .error _ => 0

section
variable {t : ℝ}

theorem analytic_mk {a b : ℝ → ℝ} (ha : AnalyticAt ℝ a t) (hb : AnalyticAt ℝ b t) : AnalyticAt ℝ (fun s => (⟨a s, b s⟩ : ℂ)) t := by
  have e : (fun s => (⟨a s, b s⟩ : ℂ)) = fun s => (a s : ℂ) + (b s : ℂ) * I := by
    funext s
    exact Complex.mk_eq_add_mul_I _ _
  rw [e]
  exact ((Complex.ofRealCLM.analyticAt _).comp ha).add (((Complex.ofRealCLM.analyticAt _).comp hb).mul analyticAt_const)

theorem analytic_sqrt {f : ℝ → ℝ} (hf : AnalyticAt ℝ f t) (h : f t ≠ 0) : AnalyticAt ℝ (fun s => Real.sqrt (f s)) t := by
  have h1 : ContDiffAt ℝ ⊤ Real.sqrt (f t) := Real.contDiffAt_sqrt h
  exact h1.analyticAt.comp hf

theorem ppd_sum_pos {a b c d : ℝ} (h : (⟨a, b⟩ : ℂ) ≠ ⟨c, d⟩) : 0 < square (a - c) + square (b - d) :=
  lt_of_le_of_ne (by unfold square; nlinarith [sq_nonneg (a - c), sq_nonneg (b - d)]) (ppd_sum_ne h).symm

theorem lct_off_degenerate {a b c d e f g : ℝ} (h : Real.sqrt (square (a - c) + square (b - d)) ≠ 0) :
    (lctResGrad a b c d e f g).1 = 1 / Real.sqrt (square (a - c) + square (b - d)) * |a * (d - f) + c * (f - b) + e * (b - d)| - g := by
  simp only [lctResGrad, FloatOps.sqrt, FloatOps.eqB, decide_eq_true_eq]
  have h1' : Real.sqrt ((a - c) * (a - c) + (b - d) * (b - d)) ≠ 0 := h
  rw [if_neg h1']
  rfl

theorem analytic_dist {a b c d : ℝ → ℝ} (ha : AnalyticAt ℝ a t) (hb : AnalyticAt ℝ b t) (hc : AnalyticAt ℝ c t) (hd : AnalyticAt ℝ d t)
    (h : (⟨a t, b t⟩ : ℂ) ≠ ⟨c t, d t⟩) : AnalyticAt ℝ (fun s => Real.sqrt (square (a s - c s) + square (b s - d s))) t := by
  refine analytic_sqrt ?_ (ppd_sum_ne h)
  exact ((ha.sub hc).mul (ha.sub hc)).add ((hb.sub hd).mul (hb.sub hd))

theorem analytic_angle {u v : ℝ → ℂ} (hu : AnalyticAt ℝ u t) (hv : AnalyticAt ℝ v t) (hs : v t / u t ∈ slitPlane) :
    AnalyticAt ℝ (fun s => angleFromTo (u s) (v s)) t := by
  have hne := slitPlane_ne_zero hs
  have hut : u t ≠ 0 := fun h => hne (by rw [h, div_zero])
  have hq : AnalyticAt ℝ (fun s => v s / u s) t := hv.div hu hut
  have hl : AnalyticAt ℝ (fun s => (Complex.log (v s / u s)).im) t :=
    (Complex.imCLM.analyticAt _).comp (AnalyticAt.comp_of_eq ((analyticAt_clog hs).restrictScalars (𝕜 := ℝ)) hq rfl)
  refine hl.congr ?_
  have h1 : ∀ᶠ s in nhds t, v s / u s ∈ slitPlane := hq.continuousAt.eventually_mem (isOpen_slitPlane.mem_nhds hs)
  filter_upwards [h1] with s h1
  have hne := slitPlane_ne_zero h1
  rw [angleFromTo_eq_arg (fun h => hne (by rw [h, div_zero])) (fun h => hne (by rw [h, zero_div])) h1, Complex.log_im]

theorem analytic_abs {f : ℝ → ℝ} (hf : AnalyticAt ℝ f t) (h : f t ≠ 0) : AnalyticAt ℝ (fun s => |f s|) t := by
  rcases lt_or_gt_of_ne h with h | h
  · refine hf.neg.congr ?_
    filter_upwards [hf.continuousAt.eventually_lt_const h] with s hs
    rw [abs_of_neg hs]; rfl
  · refine hf.congr ?_
    filter_upwards [hf.continuousAt.eventually_const_lt h] with s hs
    rw [abs_of_pos hs]

/-- Where an expression is smooth, its residual is analytic along every analytic motion of its arguments. -/
theorem Expr.residual_analytic (e : Expr ℝ) (x : Nat → ℝ → ℝ) (hx : ∀ v ∈ e.variableIndices, AnalyticAt ℝ (x v) t)
    (hs : SmoothAt e (e.variableIndices.map (x · t))) : AnalyticAt ℝ (fun s => e.residualOf (e.variableIndices.map (x · s))) t := by
  have hx' : ∀ i (h : i < e.variableIndices.length), AnalyticAt ℝ (x e.variableIndices[i]) t := fun i h => hx _ (List.getElem_mem h)
  cases e with
  | variableVariableEquality a b =>
    exact (hx' 1 (by simp [Expr.variableIndices])).sub (hx' 0 (by simp [Expr.variableIndices]))
  | pointPointDistance p q d =>
    exact (analytic_dist (hx' 0 (by simp [Expr.variableIndices])) (hx' 1 (by simp [Expr.variableIndices])) (hx' 2 (by simp [Expr.variableIndices]))
      (hx' 3 (by simp [Expr.variableIndices])) hs).sub analyticAt_const
  | pointPointPointAngle p q r d =>
    have a := hx' 0 (by simp [Expr.variableIndices])
    have b := hx' 1 (by simp [Expr.variableIndices])
    have c := hx' 2 (by simp [Expr.variableIndices])
    have d' := hx' 3 (by simp [Expr.variableIndices])
    have e := hx' 4 (by simp [Expr.variableIndices])
    have f := hx' 5 (by simp [Expr.variableIndices])
    have h := (analytic_angle ((analytic_mk a b).sub (analytic_mk c d')) ((analytic_mk e f).sub (analytic_mk c d')) hs).sub
      (analyticAt_const (v := d))
    refine h.congr (Filter.Eventually.of_forall (fun s => ?_))
    exact (pppa_real ..).symm
  | pointLineIncidence p a b =>
    have a := hx' 0 (by simp [Expr.variableIndices])
    have b := hx' 1 (by simp [Expr.variableIndices])
    have c := hx' 2 (by simp [Expr.variableIndices])
    have d := hx' 3 (by simp [Expr.variableIndices])
    have e := hx' 4 (by simp [Expr.variableIndices])
    have f := hx' 5 (by simp [Expr.variableIndices])
    exact ((e.sub c).mul (b.sub d)).sub ((f.sub d).mul (a.sub c))
  | pointLineDistance p q r k =>
    have a := hx' 0 (by simp [Expr.variableIndices])
    have b := hx' 1 (by simp [Expr.variableIndices])
    have c := hx' 2 (by simp [Expr.variableIndices])
    have d := hx' 3 (by simp [Expr.variableIndices])
    have e := hx' 4 (by simp [Expr.variableIndices])
    have f := hx' 5 (by simp [Expr.variableIndices])
    have h := analytic_dist e f c d (Ne.symm hs)
    have hpos := ppd_sum_pos (Ne.symm hs)
    exact (((analyticAt_const (v := (1 : ℝ))).div h (Real.sqrt_ne_zero'.2 hpos)).mul
      (((e.sub c).mul (b.sub d)).sub ((f.sub d).mul (a.sub c)))).sub analyticAt_const
  | pointCircleIncidence p q r =>
    exact (analytic_dist (hx' 0 (by simp [Expr.variableIndices])) (hx' 1 (by simp [Expr.variableIndices])) (hx' 2 (by simp [Expr.variableIndices]))
      (hx' 3 (by simp [Expr.variableIndices])) hs).sub (hx' 4 (by simp [Expr.variableIndices]))
  | segmentSegmentLengthEquality p q r s =>
    have a := hx' 0 (by simp [Expr.variableIndices])
    have b := hx' 1 (by simp [Expr.variableIndices])
    have c := hx' 2 (by simp [Expr.variableIndices])
    have d := hx' 3 (by simp [Expr.variableIndices])
    have e := hx' 4 (by simp [Expr.variableIndices])
    have f := hx' 5 (by simp [Expr.variableIndices])
    have g := hx' 6 (by simp [Expr.variableIndices])
    have h := hx' 7 (by simp [Expr.variableIndices])
    exact ((analytic_dist e f g h hs.2).sub analyticAt_const).sub ((analytic_dist a b c d hs.1).sub analyticAt_const)
  | lineLineAngle p q r s k =>
    have a := hx' 0 (by simp [Expr.variableIndices])
    have b := hx' 1 (by simp [Expr.variableIndices])
    have c := hx' 2 (by simp [Expr.variableIndices])
    have d := hx' 3 (by simp [Expr.variableIndices])
    have e := hx' 4 (by simp [Expr.variableIndices])
    have f := hx' 5 (by simp [Expr.variableIndices])
    have g := hx' 6 (by simp [Expr.variableIndices])
    have h := hx' 7 (by simp [Expr.variableIndices])
    have h := (analytic_angle ((analytic_mk c d).sub (analytic_mk a b)) ((analytic_mk g h).sub (analytic_mk e f)) hs).sub
      (analyticAt_const (v := k))
    refine h.congr (Filter.Eventually.of_forall (fun s => ?_))
    exact (lla_real ..).symm
  | lineLineParallelism p q r s =>
    have a := hx' 0 (by simp [Expr.variableIndices])
    have b := hx' 1 (by simp [Expr.variableIndices])
    have c := hx' 2 (by simp [Expr.variableIndices])
    have d := hx' 3 (by simp [Expr.variableIndices])
    have e := hx' 4 (by simp [Expr.variableIndices])
    have f := hx' 5 (by simp [Expr.variableIndices])
    have g := hx' 6 (by simp [Expr.variableIndices])
    have h := hx' 7 (by simp [Expr.variableIndices])
    exact ((g.sub e).mul (d.sub b)).sub ((h.sub f).mul (c.sub a))
  | lineLinePerpendicularity p q r s =>
    have a := hx' 0 (by simp [Expr.variableIndices])
    have b := hx' 1 (by simp [Expr.variableIndices])
    have c := hx' 2 (by simp [Expr.variableIndices])
    have d := hx' 3 (by simp [Expr.variableIndices])
    have e := hx' 4 (by simp [Expr.variableIndices])
    have f := hx' 5 (by simp [Expr.variableIndices])
    have g := hx' 6 (by simp [Expr.variableIndices])
    have h := hx' 7 (by simp [Expr.variableIndices])
    exact ((g.sub e).mul (c.sub a)).add ((h.sub f).mul (d.sub b))
  | lineCircleTangency p q r s =>
    have a := hx' 0 (by simp [Expr.variableIndices])
    have b := hx' 1 (by simp [Expr.variableIndices])
    have c := hx' 2 (by simp [Expr.variableIndices])
    have d := hx' 3 (by simp [Expr.variableIndices])
    have e := hx' 4 (by simp [Expr.variableIndices])
    have f := hx' 5 (by simp [Expr.variableIndices])
    have g := hx' 6 (by simp [Expr.variableIndices])
    have hl := analytic_dist a b c d hs.1
    have hpos := Real.sqrt_ne_zero'.2 (ppd_sum_pos hs.1)
    have harea := ((a.mul (d.sub f)).add (c.mul (f.sub b))).add (e.mul (b.sub d))
    have habs := analytic_abs harea (by
      intro h0
      apply hs.2
      rw [← h0]
      simp only [crossC, Complex.sub_re, Complex.sub_im, Pi.add_apply, Pi.mul_apply, Pi.sub_apply]
      simp only [Expr.variableIndices, List.getElem_cons_zero, List.getElem_cons_succ]
      ring)
    have h := (((analyticAt_const (v := (1 : ℝ))).div hl hpos).mul habs).sub g
    refine h.congr ?_
    filter_upwards [hl.continuousAt.eventually_ne hpos] with s h1
    refine (lct_off_degenerate ?_).symm
    exact h1

end

end Fiksi
