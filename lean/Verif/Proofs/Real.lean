import Verif.Model.Expr
import Mathlib.Analysis.SpecialFunctions.Complex.Log
import Mathlib.Analysis.SpecialFunctions.Trigonometric.Basic
import Mathlib.Tactic.Ring
import Mathlib.Tactic.Linarith
import Mathlib.Tactic.LinearCombination
import Mathlib.Tactic.FieldSimp
/-!
# The residual formulas over the real numbers

The `f64` functions are read as the exact real functions: `atan2 y x` is the argument of `x + iy` in `(-π, π]` (`0` at the origin,
as IEEE `atan2(0, 0)`); signed zeros, NaN, infinities and rounding are not modelled. Each residual is expressed with complex numbers.
-/
namespace Fiksi

open Complex

/-- Exact real semantics of the `f64` functions. -/
noncomputable instance instRealOps : FloatOps ℝ where
  sqrt := Real.sqrt
  atan2 y x := Complex.arg ⟨x, y⟩
  sin := Real.sin
  cos := Real.cos
  abs x := |x|
  signum x := if x < 0 then -1 else 1
  pi := Real.pi
  ofNat n := (n : ℝ)
  ltB a b := decide (a < b)
  eqB a b := decide (a = b)

/-- `wrapAngle` on real numbers. -/
noncomputable def wrapR (x : ℝ) : ℝ :=
  if Real.pi < x then x - 2 * Real.pi else if x < -Real.pi then x + 2 * Real.pi else x

theorem wrapAngle_real (x : ℝ) : wrapAngle x = wrapR x := by
  have h2 : (1 + 1 : ℝ) = 2 := by norm_num
  simp only [wrapAngle, wrapR, FloatOps.ltB, FloatOps.pi, decide_eq_true_eq, h2]

/-- The angle from `u` to `v` as the code computes it. -/
noncomputable def angleFromTo (u v : ℂ) : ℝ := wrapR (arg v - arg u)

/-- The cross product of two plane vectors. -/
def crossC (u v : ℂ) : ℝ := u.re * v.im - u.im * v.re

/-- The scalar product of two plane vectors. -/
def dotC (u v : ℂ) : ℝ := u.re * v.re + u.im * v.im

theorem crossC_eq (u v : ℂ) : crossC u v = ((starRingEnd ℂ) u * v).im := by
  simp [crossC]; ring

theorem dotC_eq (u v : ℂ) : dotC u v = ((starRingEnd ℂ) u * v).re := by
  simp [dotC]

theorem sqrt_sq_add (x y : ℝ) : Real.sqrt (x * x + y * y) = ‖(⟨x, y⟩ : ℂ)‖ := by
  rw [Complex.norm_def, Complex.normSq_apply]

theorem sub_mk (a b c d : ℝ) : (⟨a, b⟩ : ℂ) - ⟨c, d⟩ = ⟨a - c, b - d⟩ := rfl

theorem ppd_real (x1 y1 x2 y2 d : ℝ) : (ppdResGrad x1 y1 x2 y2 d).1 = ‖(⟨x1, y1⟩ : ℂ) - ⟨x2, y2⟩‖ - d := by
  simp only [ppdResGrad, FloatOps.sqrt, square, sub_mk, sqrt_sq_add]

theorem pppa_real (x1 y1 x2 y2 x3 y3 t : ℝ) :
    (pppaResGrad x1 y1 x2 y2 x3 y3 t).1 = angleFromTo (⟨x1, y1⟩ - ⟨x2, y2⟩) (⟨x3, y3⟩ - ⟨x2, y2⟩) - t := by
  simp only [pppaResGrad, FloatOps.atan2, wrapAngle_real, angleFromTo, sub_mk]

theorem pli_real (x y x1 y1 x2 y2 : ℝ) :
    (pliResGrad x y x1 y1 x2 y2).1 = crossC (⟨x2, y2⟩ - ⟨x1, y1⟩) (⟨x, y⟩ - ⟨x1, y1⟩) := by
  simp only [pliResGrad, crossC, sub_mk]

theorem pld_real (x y x1 y1 x2 y2 d : ℝ) : (pldResGrad x y x1 y1 x2 y2 d).1 =
    crossC (⟨x2, y2⟩ - ⟨x1, y1⟩) (⟨x, y⟩ - ⟨x1, y1⟩) / ‖(⟨x2, y2⟩ : ℂ) - ⟨x1, y1⟩‖ - d := by
  simp only [pldResGrad, crossC, sub_mk, FloatOps.sqrt, sqrt_sq_add]
  ring

theorem pci_real (x y cx cy r : ℝ) : (pciResGrad x y cx cy r).1 = ‖(⟨x, y⟩ : ℂ) - ⟨cx, cy⟩‖ - r := by
  simp only [pciResGrad, ppd_real]

theorem ssle_real (a b c d e f g h : ℝ) :
    (ssleResGrad a b c d e f g h).1 = ‖(⟨e, f⟩ : ℂ) - ⟨g, h⟩‖ - ‖(⟨a, b⟩ : ℂ) - ⟨c, d⟩‖ := by
  simp only [ssleResGrad, ppd_real, sub_zero]

theorem lla_real (a b c d e f g h t : ℝ) :
    (llaResGrad a b c d e f g h t).1 = angleFromTo (⟨c, d⟩ - ⟨a, b⟩) (⟨g, h⟩ - ⟨e, f⟩) - t := by
  simp only [llaResGrad, FloatOps.atan2, wrapAngle_real, angleFromTo, sub_mk]

theorem llpar_real (a b c d e f g h : ℝ) :
    (llparResGrad a b c d e f g h).1 = -crossC (⟨c, d⟩ - ⟨a, b⟩) (⟨g, h⟩ - ⟨e, f⟩) := by
  simp only [llparResGrad, crossC, sub_mk]; ring

theorem llperp_real (a b c d e f g h : ℝ) :
    (llperpResGrad a b c d e f g h).1 = dotC (⟨c, d⟩ - ⟨a, b⟩) (⟨g, h⟩ - ⟨e, f⟩) := by
  simp only [llperpResGrad, dotC, sub_mk]; ring

theorem norm_sub_mk_eq_zero {a b c d : ℝ} : ‖(⟨a, b⟩ : ℂ) - ⟨c, d⟩‖ = 0 ↔ (⟨a, b⟩ : ℂ) = ⟨c, d⟩ := by
  rw [norm_eq_zero, sub_eq_zero]

theorem lct_real {x1 y1 x2 y2 : ℝ} (h : (⟨x1, y1⟩ : ℂ) ≠ ⟨x2, y2⟩) (cx cy r : ℝ) : (lctResGrad x1 y1 x2 y2 cx cy r).1 =
    |crossC (⟨x2, y2⟩ - ⟨x1, y1⟩) (⟨cx, cy⟩ - ⟨x1, y1⟩)| / ‖(⟨x2, y2⟩ : ℂ) - ⟨x1, y1⟩‖ - r := by
  have hn : Real.sqrt ((x1 - x2) * (x1 - x2) + (y1 - y2) * (y1 - y2)) ≠ 0 := by
    rw [sqrt_sq_add, ← sub_mk]
    exact fun h' => h (norm_sub_mk_eq_zero.1 h')
  simp only [lctResGrad, FloatOps.sqrt, FloatOps.eqB, decide_eq_true_eq, if_neg hn, FloatOps.abs]
  rw [norm_sub_rev, sqrt_sq_add, sub_mk x1]
  have : x1 * (y2 - cy) + x2 * (cy - y1) + cx * (y1 - y2) = crossC (⟨x2, y2⟩ - ⟨x1, y1⟩) (⟨cx, cy⟩ - ⟨x1, y1⟩) := by
    simp only [crossC, sub_mk]; ring
  rw [this]
  ring

theorem lct_degenerate {x1 y1 x2 y2 : ℝ} (h : (⟨x1, y1⟩ : ℂ) = ⟨x2, y2⟩) (cx cy r : ℝ) :
    lctResGrad x1 y1 x2 y2 cx cy r = (0, [0, 0, 0, 0, 0, 0, 0]) := by
  have hn : Real.sqrt ((x1 - x2) * (x1 - x2) + (y1 - y2) * (y1 - y2)) = 0 := by
    rw [sqrt_sq_add, ← sub_mk]
    exact norm_sub_mk_eq_zero.2 h
  simp only [lctResGrad, FloatOps.sqrt, FloatOps.eqB, decide_eq_true_eq, if_pos hn]

/-! ## The wrapped angle -/

theorem wrapR_range {x : ℝ} (h1 : -(2 * Real.pi) ≤ x) (h2 : x ≤ 2 * Real.pi) : -Real.pi ≤ wrapR x ∧ wrapR x ≤ Real.pi := by
  have := Real.pi_pos
  unfold wrapR
  split_ifs <;> constructor <;> linarith

theorem arg_sub_range (u v : ℂ) : -(2 * Real.pi) < arg v - arg u ∧ arg v - arg u < 2 * Real.pi := by
  have := neg_pi_lt_arg u
  have := arg_le_pi u
  have := neg_pi_lt_arg v
  have := arg_le_pi v
  constructor <;> linarith

theorem angleFromTo_range (u v : ℂ) : -Real.pi ≤ angleFromTo u v ∧ angleFromTo u v ≤ Real.pi :=
  wrapR_range (arg_sub_range u v).1.le (arg_sub_range u v).2.le

theorem exp_wrapR (x : ℝ) : exp (wrapR x * I) = exp (x * I) := by
  unfold wrapR
  split_ifs
  · push_cast
    rw [sub_mul, exp_sub]
    simp [exp_two_pi_mul_I]
  · push_cast
    rw [add_mul, exp_add]
    simp [exp_two_pi_mul_I]
  · rfl

theorem unit_eq_exp_arg {u : ℂ} (h : u ≠ 0) : u / ‖u‖ = exp (arg u * I) := by
  have hn : (‖u‖ : ℂ) ≠ 0 := by simpa using h
  rw [div_eq_iff hn, mul_comm]
  exact (norm_mul_exp_arg_mul_I u).symm

/-- The code's angle turns the direction of `u` into the direction of `v`. -/
theorem angleFromTo_turns {u v : ℂ} (hu : u ≠ 0) (hv : v ≠ 0) : v / ‖v‖ = u / ‖u‖ * exp (angleFromTo u v * I) := by
  rw [unit_eq_exp_arg hu, unit_eq_exp_arg hv, angleFromTo, exp_wrapR, ← exp_add]
  congr 1
  push_cast
  ring

theorem eq_of_exp_mul_I_eq {a b : ℝ} (h : exp (a * I) = exp (b * I)) (h1 : |a - b| < 2 * Real.pi) : a = b := by
  rw [exp_eq_exp_iff_exists_int] at h
  obtain ⟨n, hn⟩ := h
  have him := congrArg Complex.im hn
  simp at him
  have hpi := Real.pi_pos
  have hab : a - b = n * (2 * Real.pi) := by linarith
  rw [hab, abs_mul, abs_of_pos (by linarith : (0 : ℝ) < 2 * Real.pi)] at h1
  have h2 : |(n : ℝ)| < 1 := by
    by_contra hcon
    push Not at hcon
    nlinarith
  have h3 : n = 0 := by
    have : |n| < 1 := by exact_mod_cast h2
    simpa using this
  subst h3
  simp at hab
  linarith

/-- A nonzero-armed angle inside `(-π, π)` is the code's angle. -/
theorem angleFromTo_eq_iff {u v : ℂ} (hu : u ≠ 0) (hv : v ≠ 0) {θ : ℝ} (h1 : -Real.pi < θ) (h2 : θ < Real.pi) :
    angleFromTo u v = θ ↔ v / ‖v‖ = u / ‖u‖ * exp (θ * I) := by
  constructor
  · rintro rfl
    exact angleFromTo_turns hu hv
  · intro h
    have hn : u / ‖u‖ ≠ 0 := div_ne_zero hu (by simpa using hu)
    have := (angleFromTo_turns hu hv).symm.trans h
    have := mul_left_cancel₀ hn this
    refine eq_of_exp_mul_I_eq this ?_
    obtain ⟨h3, h4⟩ := angleFromTo_range u v
    rw [abs_lt]
    constructor <;> linarith

/-- If the code's angle is not `±π` it is the argument of the quotient. -/
theorem angleFromTo_eq_arg {u v : ℂ} (hu : u ≠ 0) (hv : v ≠ 0) (h : v / u ∈ slitPlane) : angleFromTo u v = arg (v / u) := by
  have hlt : arg (v / u) ≠ Real.pi := (mem_slitPlane_iff_arg.1 h).1
  have h1 := neg_pi_lt_arg (v / u)
  have h2 := lt_of_le_of_ne (arg_le_pi (v / u)) hlt
  rw [angleFromTo_eq_iff hu hv h1 h2]
  have hd : v / u ≠ 0 := div_ne_zero hv hu
  rw [← unit_eq_exp_arg hd, norm_div]
  have hnu : (‖u‖ : ℂ) ≠ 0 := by simpa using hu
  have hnv : (‖v‖ : ℂ) ≠ 0 := by simpa using hv
  push_cast
  field_simp

end Fiksi
