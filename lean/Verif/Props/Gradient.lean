import Verif.Proofs.Gradient
import Verif.Proofs.Basic
import Mathlib.Analysis.SpecialFunctions.Trigonometric.Deriv
/-!
# Gradients and poses over exact real numbers (C13, C50)
-/
namespace Fiksi

open Complex

/-- The local configuration is smooth: points whose distance is taken are different, lines are not degenerate, an angle is not
straight, a tangent circle's centre is not on the line (there the unsigned distance has a cusp). Elsewhere the residuals are not
differentiable. -/
def SmoothAt : Expr ℝ → List ℝ → Prop
  | .pointPointDistance _ _ _, [a, b, c, d] => (⟨a, b⟩ : ℂ) ≠ ⟨c, d⟩
  | .pointPointPointAngle _ _ _ _, [a, b, c, d, e, f] => ((⟨e, f⟩ : ℂ) - ⟨c, d⟩) / (⟨a, b⟩ - ⟨c, d⟩) ∈ slitPlane
  | .pointLineDistance _ _ _ _, [_, _, c, d, e, f] => (⟨c, d⟩ : ℂ) ≠ ⟨e, f⟩
  | .pointCircleIncidence _ _ _, [a, b, c, d, _] => (⟨a, b⟩ : ℂ) ≠ ⟨c, d⟩
  | .segmentSegmentLengthEquality _ _ _ _, [a, b, c, d, e, f, g, h] => (⟨a, b⟩ : ℂ) ≠ ⟨c, d⟩ ∧ (⟨e, f⟩ : ℂ) ≠ ⟨g, h⟩
  | .lineLineAngle _ _ _ _ _, [a, b, c, d, e, f, g, h] => ((⟨g, h⟩ : ℂ) - ⟨e, f⟩) / (⟨c, d⟩ - ⟨a, b⟩) ∈ slitPlane
  | .lineCircleTangency _ _ _ _, [a, b, c, d, e, f, _] => (⟨a, b⟩ : ℂ) ≠ ⟨c, d⟩ ∧
      crossC (⟨c, d⟩ - ⟨a, b⟩) (⟨e, f⟩ - ⟨a, b⟩) ≠ 0
  | _, _ => True

/-- The scalar product of two lists. -/
def dotList (g v : List ℝ) : ℝ := (List.zipWith (· * ·) g v).sum

section
variable {t : ℝ}

theorem vve_deriv {a b : ℝ → ℝ} {a' b' : ℝ} (ha : HasDerivAt a a' t) (hb : HasDerivAt b b' t) :
    HasDerivAt (fun s => (vveResGrad (a s) (b s)).1) (dotList (vveResGrad (a t) (b t)).2 [a', b']) t := by
  simp only [vveResGrad]
  refine (hb.sub ha).congr_deriv ?_
  simp [dotList]
  ring

theorem ppd_deriv {a b c d : ℝ → ℝ} {a' b' c' d' : ℝ} (ha : HasDerivAt a a' t) (hb : HasDerivAt b b' t)
    (hc : HasDerivAt c c' t) (hd : HasDerivAt d d' t) (h : (⟨a t, b t⟩ : ℂ) ≠ ⟨c t, d t⟩) (k : ℝ) :
    HasDerivAt (fun s => (ppdResGrad (a s) (b s) (c s) (d s) k).1)
      (dotList (ppdResGrad (a t) (b t) (c t) (d t) k).2 [a', b', c', d']) t := by
  simp only [ppdResGrad, FloatOps.sqrt]
  refine ((hasDerivAt_dist ha hb hc hd h).sub_const k).congr_deriv ?_
  simp [dotList]
  ring

theorem pppa_deriv {a b c d e f : ℝ → ℝ} {a' b' c' d' e' f' : ℝ} (ha : HasDerivAt a a' t) (hb : HasDerivAt b b' t)
    (hc : HasDerivAt c c' t) (hd : HasDerivAt d d' t) (he : HasDerivAt e e' t) (hf : HasDerivAt f f' t)
    (h : ((⟨e t, f t⟩ : ℂ) - ⟨c t, d t⟩) / (⟨a t, b t⟩ - ⟨c t, d t⟩) ∈ slitPlane) (k : ℝ) :
    HasDerivAt (fun s => (pppaResGrad (a s) (b s) (c s) (d s) (e s) (f s) k).1)
      (dotList (pppaResGrad (a t) (b t) (c t) (d t) (e t) (f t) k).2 [a', b', c', d', e', f']) t := by
  simp only [pppa_real]
  have h1 := hasDerivAt_angle ((hasDerivAt_mk ha hb).sub (hasDerivAt_mk hc hd)) ((hasDerivAt_mk he hf).sub (hasDerivAt_mk hc hd)) h
  refine (h1.sub_const k).congr_deriv ?_
  simp only [im_div_self, Pi.sub_apply, pppaResGrad, dotList, Complex.sub_re, Complex.sub_im, List.zipWith_cons_cons,
    List.zipWith_nil_left, List.sum_cons, List.sum_nil]
  ring

theorem pli_deriv {a b c d e f : ℝ → ℝ} {a' b' c' d' e' f' : ℝ} (ha : HasDerivAt a a' t) (hb : HasDerivAt b b' t)
    (hc : HasDerivAt c c' t) (hd : HasDerivAt d d' t) (he : HasDerivAt e e' t) (hf : HasDerivAt f f' t) :
    HasDerivAt (fun s => (pliResGrad (a s) (b s) (c s) (d s) (e s) (f s)).1)
      (dotList (pliResGrad (a t) (b t) (c t) (d t) (e t) (f t)).2 [a', b', c', d', e', f']) t := by
  simp only [pliResGrad]
  refine (((he.sub hc).mul (hb.sub hd)).sub ((hf.sub hd).mul (ha.sub hc))).congr_deriv ?_
  simp only [Pi.sub_apply, dotList, List.zipWith_cons_cons, List.zipWith_nil_left, List.sum_cons, List.sum_nil]
  ring

theorem pld_deriv {a b c d e f : ℝ → ℝ} {a' b' c' d' e' f' : ℝ} (ha : HasDerivAt a a' t) (hb : HasDerivAt b b' t)
    (hc : HasDerivAt c c' t) (hd : HasDerivAt d d' t) (he : HasDerivAt e e' t) (hf : HasDerivAt f f' t)
    (h : (⟨c t, d t⟩ : ℂ) ≠ ⟨e t, f t⟩) (k : ℝ) :
    HasDerivAt (fun s => (pldResGrad (a s) (b s) (c s) (d s) (e s) (f s) k).1)
      (dotList (pldResGrad (a t) (b t) (c t) (d t) (e t) (f t) k).2 [a', b', c', d', e', f']) t := by
  have hd1 := hasDerivAt_dist he hf hc hd h.symm
  have hs0 := ppd_sum_ne h.symm
  have hpos : 0 < square (e t - c t) + square (f t - d t) :=
    lt_of_le_of_ne (by unfold square; nlinarith [sq_nonneg (e t - c t), sq_nonneg (f t - d t)]) hs0.symm
  have hs : Real.sqrt (square (e t - c t) + square (f t - d t)) ≠ 0 := (Real.sqrt_ne_zero').2 hpos
  have hsq : Real.sqrt (square (e t - c t) + square (f t - d t)) * Real.sqrt (square (e t - c t) + square (f t - d t)) =
      square (e t - c t) + square (f t - d t) := Real.mul_self_sqrt hpos.le
  have hn := ((he.sub hc).mul (hb.sub hd)).sub ((hf.sub hd).mul (ha.sub hc))
  have h2 := (((hasDerivAt_const t (1 : ℝ)).div hd1 hs).mul hn).sub_const k
  have hfun : (fun s => (pldResGrad (a s) (b s) (c s) (d s) (e s) (f s) k).1) = fun s =>
      1 / Real.sqrt (square (e s - c s) + square (f s - d s)) *
        ((e s - c s) * (b s - d s) - (f s - d s) * (a s - c s)) - k := rfl
  rw [hfun]
  refine h2.congr_deriv ?_
  simp only [Pi.sub_apply, Pi.mul_apply, Pi.div_apply, pldResGrad, FloatOps.sqrt, dotList, List.zipWith_cons_cons,
    List.zipWith_nil_left, List.sum_cons, List.sum_nil]
  have e1 : (e t - c t) * (e t - c t) + (f t - d t) * (f t - d t) = square (e t - c t) + square (f t - d t) := rfl
  rw [e1]
  generalize hL : Real.sqrt (square (e t - c t) + square (f t - d t)) = L at *
  rw [← hsq]
  have hsq' : L * L = (e t - c t) * (e t - c t) + (f t - d t) * (f t - d t) := by rw [hsq]; rfl
  field_simp
  have hc2 : L ^ 2 = (e t - c t) * (e t - c t) + (f t - d t) * (f t - d t) := by rw [← hsq']; ring
  rw [hc2]
  ring

theorem pci_deriv {a b c d e : ℝ → ℝ} {a' b' c' d' e' : ℝ} (ha : HasDerivAt a a' t) (hb : HasDerivAt b b' t)
    (hc : HasDerivAt c c' t) (hd : HasDerivAt d d' t) (he : HasDerivAt e e' t) (h : (⟨a t, b t⟩ : ℂ) ≠ ⟨c t, d t⟩) :
    HasDerivAt (fun s => (pciResGrad (a s) (b s) (c s) (d s) (e s)).1)
      (dotList (pciResGrad (a t) (b t) (c t) (d t) (e t)).2 [a', b', c', d', e']) t := by
  simp only [pciResGrad, ppdResGrad, FloatOps.sqrt]
  refine ((hasDerivAt_dist ha hb hc hd h).sub he).congr_deriv ?_
  simp [dotList]
  ring

theorem ssle_deriv {a b c d e f g h : ℝ → ℝ} {a' b' c' d' e' f' g' h' : ℝ} (ha : HasDerivAt a a' t) (hb : HasDerivAt b b' t)
    (hc : HasDerivAt c c' t) (hd : HasDerivAt d d' t) (he : HasDerivAt e e' t) (hf : HasDerivAt f f' t) (hg : HasDerivAt g g' t)
    (hh : HasDerivAt h h' t) (h1 : (⟨a t, b t⟩ : ℂ) ≠ ⟨c t, d t⟩) (h2 : (⟨e t, f t⟩ : ℂ) ≠ ⟨g t, h t⟩) :
    HasDerivAt (fun s => (ssleResGrad (a s) (b s) (c s) (d s) (e s) (f s) (g s) (h s)).1)
      (dotList (ssleResGrad (a t) (b t) (c t) (d t) (e t) (f t) (g t) (h t)).2 [a', b', c', d', e', f', g', h']) t := by
  simp only [ssleResGrad, ppdResGrad, FloatOps.sqrt]
  refine (((hasDerivAt_dist he hf hg hh h2).sub_const 0).sub ((hasDerivAt_dist ha hb hc hd h1).sub_const 0)).congr_deriv ?_
  simp [dotList]
  ring

theorem lla_deriv {a b c d e f g h : ℝ → ℝ} {a' b' c' d' e' f' g' h' : ℝ} (ha : HasDerivAt a a' t) (hb : HasDerivAt b b' t)
    (hc : HasDerivAt c c' t) (hd : HasDerivAt d d' t) (he : HasDerivAt e e' t) (hf : HasDerivAt f f' t) (hg : HasDerivAt g g' t)
    (hh : HasDerivAt h h' t) (hs : ((⟨g t, h t⟩ : ℂ) - ⟨e t, f t⟩) / (⟨c t, d t⟩ - ⟨a t, b t⟩) ∈ slitPlane) (k : ℝ) :
    HasDerivAt (fun s => (llaResGrad (a s) (b s) (c s) (d s) (e s) (f s) (g s) (h s) k).1)
      (dotList (llaResGrad (a t) (b t) (c t) (d t) (e t) (f t) (g t) (h t) k).2 [a', b', c', d', e', f', g', h']) t := by
  simp only [lla_real]
  have h1 := hasDerivAt_angle ((hasDerivAt_mk hc hd).sub (hasDerivAt_mk ha hb)) ((hasDerivAt_mk hg hh).sub (hasDerivAt_mk he hf)) hs
  refine (h1.sub_const k).congr_deriv ?_
  simp only [im_div_self, Pi.sub_apply, llaResGrad, dotList, Complex.sub_re, Complex.sub_im, List.zipWith_cons_cons,
    List.zipWith_nil_left, List.sum_cons, List.sum_nil]
  ring

theorem llpar_deriv {a b c d e f g h : ℝ → ℝ} {a' b' c' d' e' f' g' h' : ℝ} (ha : HasDerivAt a a' t) (hb : HasDerivAt b b' t)
    (hc : HasDerivAt c c' t) (hd : HasDerivAt d d' t) (he : HasDerivAt e e' t) (hf : HasDerivAt f f' t) (hg : HasDerivAt g g' t)
    (hh : HasDerivAt h h' t) :
    HasDerivAt (fun s => (llparResGrad (a s) (b s) (c s) (d s) (e s) (f s) (g s) (h s)).1)
      (dotList (llparResGrad (a t) (b t) (c t) (d t) (e t) (f t) (g t) (h t)).2 [a', b', c', d', e', f', g', h']) t := by
  simp only [llparResGrad]
  refine (((hg.sub he).mul (hd.sub hb)).sub ((hh.sub hf).mul (hc.sub ha))).congr_deriv ?_
  simp only [Pi.sub_apply, dotList, List.zipWith_cons_cons, List.zipWith_nil_left, List.sum_cons, List.sum_nil]
  ring

theorem llperp_deriv {a b c d e f g h : ℝ → ℝ} {a' b' c' d' e' f' g' h' : ℝ} (ha : HasDerivAt a a' t) (hb : HasDerivAt b b' t)
    (hc : HasDerivAt c c' t) (hd : HasDerivAt d d' t) (he : HasDerivAt e e' t) (hf : HasDerivAt f f' t) (hg : HasDerivAt g g' t)
    (hh : HasDerivAt h h' t) :
    HasDerivAt (fun s => (llperpResGrad (a s) (b s) (c s) (d s) (e s) (f s) (g s) (h s)).1)
      (dotList (llperpResGrad (a t) (b t) (c t) (d t) (e t) (f t) (g t) (h t)).2 [a', b', c', d', e', f', g', h']) t := by
  simp only [llperpResGrad]
  refine (((hg.sub he).mul (hc.sub ha)).add ((hh.sub hf).mul (hd.sub hb))).congr_deriv ?_
  simp only [Pi.sub_apply, dotList, List.zipWith_cons_cons, List.zipWith_nil_left, List.sum_cons, List.sum_nil]
  ring

theorem lct_deriv {a b c d e f g : ℝ → ℝ} {a' b' c' d' e' f' g' : ℝ} (ha : HasDerivAt a a' t) (hb : HasDerivAt b b' t)
    (hc : HasDerivAt c c' t) (hd : HasDerivAt d d' t) (he : HasDerivAt e e' t) (hf : HasDerivAt f f' t) (hg : HasDerivAt g g' t)
    (h : (⟨a t, b t⟩ : ℂ) ≠ ⟨c t, d t⟩) (hx : crossC (⟨c t, d t⟩ - ⟨a t, b t⟩) (⟨e t, f t⟩ - ⟨a t, b t⟩) ≠ 0) :
    HasDerivAt (fun s => (lctResGrad (a s) (b s) (c s) (d s) (e s) (f s) (g s)).1)
      (dotList (lctResGrad (a t) (b t) (c t) (d t) (e t) (f t) (g t)).2 [a', b', c', d', e', f', g']) t := by
  have hd1 := hasDerivAt_dist ha hb hc hd h
  have hs0 := ppd_sum_ne h
  have hpos : 0 < square (a t - c t) + square (b t - d t) :=
    lt_of_le_of_ne (by unfold square; nlinarith [sq_nonneg (a t - c t), sq_nonneg (b t - d t)]) hs0.symm
  have hs : Real.sqrt (square (a t - c t) + square (b t - d t)) ≠ 0 := (Real.sqrt_ne_zero').2 hpos
  have hsq : Real.sqrt (square (a t - c t) + square (b t - d t)) * Real.sqrt (square (a t - c t) + square (b t - d t)) =
      square (a t - c t) + square (b t - d t) := Real.mul_self_sqrt hpos.le
  -- near `t` the line is not degenerate, so the first branch is not taken
  have heq : (fun s => (lctResGrad (a s) (b s) (c s) (d s) (e s) (f s) (g s)).1) =ᶠ[nhds t] fun s =>
      1 / Real.sqrt (square (a s - c s) + square (b s - d s)) * |a s * (d s - f s) + c s * (f s - b s) + e s * (b s - d s)| - g s := by
    have h1 : ∀ᶠ s in nhds t, Real.sqrt (square (a s - c s) + square (b s - d s)) ≠ 0 :=
      hd1.continuousAt.eventually_ne hs
    filter_upwards [h1] with s h1
    simp only [lctResGrad, FloatOps.sqrt, FloatOps.eqB, decide_eq_true_eq]
    have h1' : Real.sqrt ((a s - c s) * (a s - c s) + (b s - d s) * (b s - d s)) ≠ 0 := h1
    rw [if_neg h1']
    rfl
  have harea : a t * (d t - f t) + c t * (f t - b t) + e t * (b t - d t) ≠ 0 := by
    intro h0; apply hx; rw [← h0]; simp only [crossC, Complex.sub_re, Complex.sub_im]; ring
  have hn := (((ha.mul (hd.sub hf)).add (hc.mul (hf.sub hb))).add (he.mul (hb.sub hd)))
  have hsgn : FloatOps.signum (a t * (d t - f t) + c t * (f t - b t) + e t * (b t - d t)) =
      (SignType.sign (a t * (d t - f t) + c t * (f t - b t) + e t * (b t - d t)) : ℝ) := by
    rcases lt_or_gt_of_ne harea with h1 | h1
    · simp [FloatOps.signum, h1]
    · simp [FloatOps.signum, h1, not_lt_of_gt h1]
  have habs := (hasDerivAt_abs harea).comp t hn
  have h2 := (((hasDerivAt_const t (1 : ℝ)).div hd1 hs).mul habs).sub hg
  have habs2 : |a t * (d t - f t) + c t * (f t - b t) + e t * (b t - d t)| =
      (SignType.sign (a t * (d t - f t) + c t * (f t - b t) + e t * (b t - d t)) : ℝ) *
        (a t * (d t - f t) + c t * (f t - b t) + e t * (b t - d t)) := (sign_mul_self _).symm
  refine (h2.congr_of_eventuallyEq heq).congr_deriv ?_
  have hs' : Real.sqrt ((a t - c t) * (a t - c t) + (b t - d t) * (b t - d t)) ≠ 0 := hs
  simp only [lctResGrad, FloatOps.sqrt, FloatOps.eqB, decide_eq_true_eq, if_neg hs', hsgn, Function.comp_apply, Pi.div_apply,
    Pi.add_apply, Pi.mul_apply, Pi.sub_apply, habs2, dotList, List.zipWith_cons_cons, List.zipWith_nil_left, List.sum_cons,
    List.sum_nil]
  have e1 : (a t - c t) * (a t - c t) + (b t - d t) * (b t - d t) = square (a t - c t) + square (b t - d t) := rfl
  rw [e1]
  generalize (SignType.sign (a t * (d t - f t) + c t * (f t - b t) + e t * (b t - d t)) : ℝ) = sg
  generalize hL : Real.sqrt (square (a t - c t) + square (b t - d t)) = L at *
  have hsq' : (a t - c t) * (a t - c t) + (b t - d t) * (b t - d t) = L * L := by rw [hsq]; rfl
  rw [← hsq]
  field_simp
  ring

end

theorem lct_length (a b c d e f g : ℝ) : (lctResGrad a b c d e f g).2.length = 7 := by
  rw [lctResGrad]
  dsimp only
  split <;> rfl

/-- C13: along every differentiable motion of the variables, the residual changes at the rate given by the gradient the code
reports: the derivative is the scalar product of the gradient with the velocities of the expression's arguments. Variables may be
shared between arguments. -/
theorem C13_gradient_is_derivative (e : Expr ℝ) (x : Nat → ℝ → ℝ) (x' : Nat → ℝ) (t : ℝ)
    (hx : ∀ v ∈ e.variableIndices, HasDerivAt (x v) (x' v) t) (hs : SmoothAt e (e.variableIndices.map (x · t))) :
    ∃ (f : ℝ → ℝ) (g : List ℝ),
      (∀ s, e.calculateResidual (fun v => .ok (.fixed (x v s))) = .ok (f s)) ∧
      e.computeResidualAndGradient (e.variableIndices.map (x · t)) = .ok (f t, g) ∧
      g.length = e.variableIndices.length ∧ HasDerivAt f (dotList g (e.variableIndices.map x')) t := by
  have hcr : ∀ (f : ℝ → ℝ), (∀ s, ∃ g, e.computeResidualAndGradient (e.variableIndices.map (x · s)) = .ok (f s, g)) →
      ∀ s, e.calculateResidual (fun v => .ok (.fixed (x v s))) = .ok (f s) := by
    intro f hf s
    obtain ⟨g, hg⟩ := hf s
    have hm : e.variableIndices.mapM (fun i => do
        let v ← (fun v => (.ok (.fixed (x v s)) : R (Variable ℝ))) i
        pure v.value) = .ok (e.variableIndices.map (x · s)) := mapM_ok_of _ _ _ (fun a _ => rfl)
    rw [Expr.calculateResidual, hm]
    simp [hg]
  have H : ∃ (f : ℝ → ℝ) (g : List ℝ), (∀ s, ∃ g, e.computeResidualAndGradient (e.variableIndices.map (x · s)) = .ok (f s, g)) ∧
      e.computeResidualAndGradient (e.variableIndices.map (x · t)) = .ok (f t, g) ∧
      g.length = e.variableIndices.length ∧ HasDerivAt f (dotList g (e.variableIndices.map x')) t := by
    cases e <;> simp only [Expr.variableIndices, List.map_cons, List.map_nil, SmoothAt, List.forall_mem_cons,
      List.not_mem_nil, IsEmpty.forall_iff, implies_true, and_true] at hs hx ⊢
    · obtain ⟨h1, h2⟩ := hx
      exact ⟨fun s => (vveResGrad (x _ s) (x _ s)).1, _, fun s => ⟨_, rfl⟩, rfl, rfl, vve_deriv h1 h2⟩
    · obtain ⟨h1, h2, h3, h4⟩ := hx
      exact ⟨fun s => (ppdResGrad (x _ s) (x _ s) (x _ s) (x _ s) _).1, _, fun s => ⟨_, rfl⟩, rfl, rfl, ppd_deriv h1 h2 h3 h4 hs _⟩
    · obtain ⟨h1, h2, h3, h4, h5, h6⟩ := hx
      exact ⟨fun s => (pppaResGrad (x _ s) (x _ s) (x _ s) (x _ s) (x _ s) (x _ s) _).1, _, fun s => ⟨_, rfl⟩, rfl, rfl,
        pppa_deriv h1 h2 h3 h4 h5 h6 hs _⟩
    · obtain ⟨h1, h2, h3, h4, h5, h6⟩ := hx
      exact ⟨fun s => (pliResGrad (x _ s) (x _ s) (x _ s) (x _ s) (x _ s) (x _ s)).1, _, fun s => ⟨_, rfl⟩, rfl, rfl,
        pli_deriv h1 h2 h3 h4 h5 h6⟩
    · obtain ⟨h1, h2, h3, h4, h5, h6⟩ := hx
      exact ⟨fun s => (pldResGrad (x _ s) (x _ s) (x _ s) (x _ s) (x _ s) (x _ s) _).1, _, fun s => ⟨_, rfl⟩, rfl, rfl,
        pld_deriv h1 h2 h3 h4 h5 h6 hs _⟩
    · obtain ⟨h1, h2, h3, h4, h5⟩ := hx
      exact ⟨fun s => (pciResGrad (x _ s) (x _ s) (x _ s) (x _ s) (x _ s)).1, _, fun s => ⟨_, rfl⟩, rfl, rfl,
        pci_deriv h1 h2 h3 h4 h5 hs⟩
    · obtain ⟨h1, h2, h3, h4, h5, h6, h7, h8⟩ := hx
      exact ⟨fun s => (ssleResGrad (x _ s) (x _ s) (x _ s) (x _ s) (x _ s) (x _ s) (x _ s) (x _ s)).1, _, fun s => ⟨_, rfl⟩, rfl,
        rfl, ssle_deriv h1 h2 h3 h4 h5 h6 h7 h8 hs.1 hs.2⟩
    · obtain ⟨h1, h2, h3, h4, h5, h6, h7, h8⟩ := hx
      exact ⟨fun s => (llaResGrad (x _ s) (x _ s) (x _ s) (x _ s) (x _ s) (x _ s) (x _ s) (x _ s) _).1, _, fun s => ⟨_, rfl⟩, rfl,
        rfl, lla_deriv h1 h2 h3 h4 h5 h6 h7 h8 hs _⟩
    · obtain ⟨h1, h2, h3, h4, h5, h6, h7, h8⟩ := hx
      exact ⟨fun s => (llparResGrad (x _ s) (x _ s) (x _ s) (x _ s) (x _ s) (x _ s) (x _ s) (x _ s)).1, _, fun s => ⟨_, rfl⟩, rfl,
        rfl, llpar_deriv h1 h2 h3 h4 h5 h6 h7 h8⟩
    · obtain ⟨h1, h2, h3, h4, h5, h6, h7, h8⟩ := hx
      exact ⟨fun s => (llperpResGrad (x _ s) (x _ s) (x _ s) (x _ s) (x _ s) (x _ s) (x _ s) (x _ s)).1, _, fun s => ⟨_, rfl⟩, rfl,
        rfl, llperp_deriv h1 h2 h3 h4 h5 h6 h7 h8⟩
    · obtain ⟨h1, h2, h3, h4, h5, h6, h7⟩ := hx
      exact ⟨fun s => (lctResGrad (x _ s) (x _ s) (x _ s) (x _ s) (x _ s) (x _ s) (x _ s)).1, _, fun s => ⟨_, rfl⟩, rfl, lct_length _ _ _ _ _ _ _,
        lct_deriv h1 h2 h3 h4 h5 h6 h7 hs.1 hs.2⟩
  obtain ⟨f, g, h1, h2, h3, h4⟩ := H
  exact ⟨f, g, hcr f h1, h2, h3, h4⟩

/-- Non-vacuity of C13: a distance expression between `(0, 0)` and `(3, 4)`, both points moving. -/
example : ∃ (f : ℝ → ℝ) (g : List ℝ),
    (Expr.pointPointDistance 0 2 (5 : ℝ)).computeResidualAndGradient [0, 0, 3, 4] = .ok (f 0, g) ∧
      HasDerivAt f (dotList g [1, 0, 0, 1]) 0 := by
  have h := C13_gradient_is_derivative (.pointPointDistance 0 2 5)
    (fun v s => match v with | 0 => s | 1 => 0 | 2 => 3 | _ => 4 + s) (fun v => match v with | 0 => 1 | 1 => 0 | 2 => 0 | _ => 1) 0
    (by
      intro v hv
      simp only [Expr.variableIndices, List.mem_cons, List.not_mem_nil, or_false] at hv
      rcases hv with rfl | rfl | rfl | rfl
      · exact hasDerivAt_id 0
      · exact hasDerivAt_const _ _
      · exact hasDerivAt_const _ _
      · exact (hasDerivAt_id (0 : ℝ)).const_add 4)
    (by
      show (⟨0, 0⟩ : ℂ) ≠ ⟨3, 4 + 0⟩
      intro h
      rw [Complex.mk.injEq] at h
      norm_num at h)
  obtain ⟨f, g, -, h2, -, h4⟩ := h
  refine ⟨f, g, ?_, h4⟩
  simpa [Expr.variableIndices] using h2

/-! ## C50: poses -/

/-- C50: applying a pose preserves the distance of every two points. -/
theorem C50_pose_isometry (p : Pose2D ℝ) (u v z w : ℝ) :
    dist (⟨(p.transformPoint u v).1, (p.transformPoint u v).2⟩ : ℂ) ⟨(p.transformPoint z w).1, (p.transformPoint z w).2⟩ =
      dist (⟨u, v⟩ : ℂ) ⟨z, w⟩ := by
  rw [Complex.dist_eq_re_im, Complex.dist_eq_re_im]
  congr 1
  simp only [Pose2D.transformPoint, FloatOps.sin, FloatOps.cos]
  have := Real.sin_sq_add_cos_sq p.rotation
  generalize Real.sin p.rotation = s at *
  generalize Real.cos p.rotation = c at *
  have hs : s ^ 2 = 1 - c ^ 2 := by linarith
  ring_nf
  rw [hs]
  ring

/-- C50: a pose is the rotation by its angle about the origin followed by its translation. -/
theorem C50_pose_is_motion (p : Pose2D ℝ) (u v : ℝ) :
    (⟨(p.transformPoint u v).1, (p.transformPoint u v).2⟩ : ℂ) = exp (p.rotation * I) * ⟨u, v⟩ + ⟨p.tx, p.ty⟩ := by
  apply Complex.ext
  · rw [add_re, mul_re, exp_ofReal_mul_I_re, exp_ofReal_mul_I_im]
    simp only [Pose2D.transformPoint, FloatOps.sin, FloatOps.cos]
    ring
  · rw [add_im, mul_im, exp_ofReal_mul_I_re, exp_ofReal_mul_I_im]
    simp only [Pose2D.transformPoint, FloatOps.sin, FloatOps.cos]
    ring

/-- C50: the new pose is the identity. -/
theorem C50_new_pose_is_identity (u v : ℝ) : (Pose2D.new : Pose2D ℝ).transformPoint u v = (u, v) := by
  simp [Pose2D.transformPoint, Pose2D.new, FloatOps.sin, FloatOps.cos]

/-- C50: the chain rule for poses is right: for a differentiable motion of rotation and translation, the rate of change of any
linear functional `g` of the transformed point is the scalar product of `gradient_chain_rule_point g` with the velocity of the
pose. -/
theorem C50_pose_chain_rule {r a b : ℝ → ℝ} {r' a' b' t : ℝ} (hr : HasDerivAt r r' t) (ha : HasDerivAt a a' t)
    (hb : HasDerivAt b b' t) (u v g0 g1 : ℝ) :
    HasDerivAt (fun s => g0 * (Pose2D.transformPoint ⟨r s, a s, b s⟩ u v).1 + g1 * (Pose2D.transformPoint ⟨r s, a s, b s⟩ u v).2)
      (let d := Pose2D.gradientChainRulePoint ⟨r t, a t, b t⟩ u v g0 g1
       d.1 * r' + d.2.1 * a' + d.2.2 * b') t := by
  simp only [Pose2D.transformPoint, Pose2D.gradientChainRulePoint, FloatOps.sin, FloatOps.cos]
  have hs := hr.sin
  have hc := hr.cos
  refine ((((ha.add (hc.const_mul u)).sub (hs.const_mul v)).const_mul g0).add
    (((hb.add (hs.const_mul u)).add (hc.const_mul v)).const_mul g1)).congr_deriv ?_
  ring

/-- Non-vacuity of C50: a quarter turn moves `(1, 0)` to `(tx, ty + 1)`. -/
example (tx ty : ℝ) : Pose2D.transformPoint ⟨Real.pi / 2, tx, ty⟩ 1 0 = (tx, ty + 1) := by
  simp [Pose2D.transformPoint, FloatOps.sin, FloatOps.cos]

end Fiksi
