import Verif.Proofs.Geometry
import Mathlib.Analysis.SpecialFunctions.Complex.LogDeriv
import Mathlib.Analysis.SpecialFunctions.Sqrt
import Mathlib.Analysis.Calculus.Deriv.Abs
/-! # Derivatives of the residual formulas along curves -/
namespace Fiksi

open Complex

section
variable {t : ℝ}

theorem ppd_sum_ne {a b c d : ℝ} (h : (⟨a, b⟩ : ℂ) ≠ ⟨c, d⟩) : square (a - c) + square (b - d) ≠ 0 := by
  intro h0
  unfold square at h0
  apply h
  have h1 : a - c = 0 := by nlinarith [sq_nonneg (a - c), sq_nonneg (b - d)]
  have h2 : b - d = 0 := by nlinarith [sq_nonneg (a - c), sq_nonneg (b - d)]
  exact Complex.ext (sub_eq_zero.1 h1) (sub_eq_zero.1 h2)

theorem hasDerivAt_dist {a b c d : ℝ → ℝ} {a' b' c' d' : ℝ} (ha : HasDerivAt a a' t) (hb : HasDerivAt b b' t)
    (hc : HasDerivAt c c' t) (hd : HasDerivAt d d' t) (h : (⟨a t, b t⟩ : ℂ) ≠ ⟨c t, d t⟩) :
    HasDerivAt (fun s => Real.sqrt (square (a s - c s) + square (b s - d s)))
      ((a t - c t) * (1 / Real.sqrt (square (a t - c t) + square (b t - d t))) * a' +
       (b t - d t) * (1 / Real.sqrt (square (a t - c t) + square (b t - d t))) * b' +
       -(a t - c t) * (1 / Real.sqrt (square (a t - c t) + square (b t - d t))) * c' +
       -(b t - d t) * (1 / Real.sqrt (square (a t - c t) + square (b t - d t))) * d') t := by
  have h0 := ppd_sum_ne h
  have h1 := (((ha.sub hc).mul (ha.sub hc)).add ((hb.sub hd).mul (hb.sub hd))).sqrt h0
  have hs : Real.sqrt (square (a t - c t) + square (b t - d t)) ≠ 0 := by
    rw [Real.sqrt_ne_zero']
    exact lt_of_le_of_ne (by unfold square; nlinarith [sq_nonneg (a t - c t), sq_nonneg (b t - d t)]) h0.symm
  refine h1.congr_deriv ?_
  simp only [Pi.sub_apply, Pi.add_apply, Pi.mul_apply]
  simp only [square] at hs ⊢
  field_simp
  ring

theorem hasDerivAt_mk {a b : ℝ → ℝ} {a' b' : ℝ} (ha : HasDerivAt a a' t) (hb : HasDerivAt b b' t) :
    HasDerivAt (fun s => (⟨a s, b s⟩ : ℂ)) ⟨a', b'⟩ t := by
  have h1 := ha.ofReal_comp.add (hb.ofReal_comp.mul_const I)
  have e : (fun s => (⟨a s, b s⟩ : ℂ)) = fun s => ((a s : ℝ) : ℂ) + ((b s : ℝ) : ℂ) * I := by
    funext s; exact (Complex.mk_eq_add_mul_I _ _)
  rw [e, Complex.mk_eq_add_mul_I]
  exact h1

theorem im_div_self {v w : ℂ} : (w / v).im = (v.re * w.im - v.im * w.re) / (v.re * v.re + v.im * v.im) := by
  rw [Complex.div_im, Complex.normSq_apply]
  ring

/-- The derivative of the wrapped angle along curves. -/
theorem hasDerivAt_angle {u v : ℝ → ℂ} {u' v' : ℂ} (hu : HasDerivAt u u' t) (hv : HasDerivAt v v' t) (hs : v t / u t ∈ slitPlane) :
    HasDerivAt (fun s => angleFromTo (u s) (v s)) ((v' / v t).im - (u' / u t).im) t := by
  have hne := slitPlane_ne_zero hs
  have hut : u t ≠ 0 := fun h => hne (by rw [h, div_zero])
  have hvt : v t ≠ 0 := fun h => hne (by rw [h, zero_div])
  have hq := hv.div hu hut
  have hl := hq.clog_real hs
  have him : HasDerivAt (fun s => (Complex.log (v s / u s)).im) (((v' * u t - v t * u') / u t ^ 2) / (v t / u t)).im t :=
    (Complex.imCLM.hasFDerivAt.comp_hasDerivAt t hl)
  have heq : (fun s => angleFromTo (u s) (v s)) =ᶠ[nhds t] fun s => (Complex.log (v s / u s)).im := by
    have h1 : ∀ᶠ s in nhds t, v s / u s ∈ slitPlane :=
      hq.continuousAt.eventually_mem (isOpen_slitPlane.mem_nhds hs)
    filter_upwards [h1] with s h1
    have hne := slitPlane_ne_zero h1
    rw [angleFromTo_eq_arg (fun h => hne (by rw [h, div_zero])) (fun h => hne (by rw [h, zero_div])) h1, Complex.log_im]
  refine (him.congr_of_eventuallyEq heq).congr_deriv ?_
  rw [← Complex.sub_im]
  congr 1
  field_simp

end

end Fiksi
