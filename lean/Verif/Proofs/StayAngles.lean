import Verif.Proofs.StayRounded
/-!
# Residuals that divide by a length, and angles, in the scaled problem
-/
namespace Fiksi

open Spec Spec.Geo

/-- Products of numbers that change little. -/
theorem product_near_small {x y x' y' : ℝ} (hx : |x' - x| ≤ 164 / 10 ^ 15) (hy : |y' - y| ≤ 164 / 10 ^ 15) (bx : |x| ≤ 320) (bY : |y| ≤ 320) :
    |x' * y' - x * y| ≤ 106 / 10 ^ 12 ∧ |x' * y'| ≤ 102401 := by
  have e : x' * y' - x * y = (x' - x) * (y' - y) + (x' - x) * y + x * (y' - y) := by ring
  have h1 : |x' * y' - x * y| ≤ 106 / 10 ^ 12 := by
    rw [e]
    refine (abs_add_three _ _ _).trans ?_
    rw [abs_mul, abs_mul, abs_mul x]
    have k1 := mul_le_mul hx hy (abs_nonneg _) (by norm_num)
    have k2 := mul_le_mul hx bY (abs_nonneg _) (by norm_num)
    have k3 := mul_le_mul bx hy (abs_nonneg _) (by norm_num)
    norm_num only at k1 k2 k3 ⊢
    linarith
  refine ⟨h1, ?_⟩
  have h2 : |x * y| ≤ 320 * 320 := by
    rw [abs_mul]
    exact mul_le_mul bx bY (abs_nonneg _) (by norm_num)
  have h3 := abs_sub_abs_le_abs_sub (x' * y') (x * y)
  norm_num only at h1 h2 ⊢
  linarith

theorem norm_near_one {x y x' y' : ℝ} (hx : |x' - x| ≤ 164 / 10 ^ 15) (hy : |y' - y| ≤ 164 / 10 ^ 15) : |‖(⟨x', y'⟩ : ℂ)‖ - ‖(⟨x, y⟩ : ℂ)‖| ≤ 328 / 10 ^ 15 := by
  have := norm_near (ρ := 1) (X := x) (Y := y) (X' := x') (Y' := y') (ε := 164 / 10 ^ 15) (by norm_num) (by rwa [one_mul]) (by rwa [one_mul])
  rw [one_mul] at this
  exact this.trans (by norm_num)

/-- The height of a point above a line, from numbers that change little. -/
theorem height_near {x y z w x' y' z' w' : ℝ} (hx : |x' - x| ≤ 164 / 10 ^ 15) (hy : |y' - y| ≤ 164 / 10 ^ 15) (hz : |z' - z| ≤ 164 / 10 ^ 15) (hw : |w' - w| ≤ 164 / 10 ^ 15)
    (bx : |x| ≤ 320) (bY : |y| ≤ 320) (bz : |z| ≤ 320) (bw : |w| ≤ 320) (hl : 99 / 10 ^ 4 ≤ ‖(⟨x, y⟩ : ℂ)‖) :
    98 / 10 ^ 4 ≤ ‖(⟨x', y'⟩ : ℂ)‖ ∧ |1 / ‖(⟨x', y'⟩ : ℂ)‖ * (x' * w' - y' * z') - 1 / ‖(⟨x, y⟩ : ℂ)‖ * (x * w - y * z)| ≤ 5 / 10 ^ 8 := by
  have hn := norm_near_one hx hy
  have h1 := (product_near_small hx hw bx bw).1
  have h2 := (product_near_small hy hz bY bz).1
  have hc := products_le x y z w
  have hzw := norm_le_sum bz bw
  set l := ‖(⟨x, y⟩ : ℂ)‖
  set l' := ‖(⟨x', y'⟩ : ℂ)‖
  have hl' : 98 / 10 ^ 4 ≤ l' := by
    have := (abs_le.1 hn).1
    norm_num only at this hl ⊢
    linarith
  refine ⟨hl', ?_⟩
  have hl0 : 0 < l := lt_of_lt_of_le (by norm_num) hl
  have hl0' : 0 < l' := lt_of_lt_of_le (by norm_num) hl'
  have e : 1 / l' * (x' * w' - y' * z') - 1 / l * (x * w - y * z) = (x' * w' - x * w - (y' * z' - y * z)) / l' + (x * w - y * z) / l * (l - l') / l' := by
    field_simp
    ring
  have h3 : |(x * w - y * z) / l| ≤ 640 := by
    rw [abs_div, abs_of_pos hl0, div_le_iff₀ hl0]
    have h4 := abs_sub (x * w) (y * z)
    have h5 := mul_le_mul_of_nonneg_left hzw hl0.le
    linarith
  have h4 : |x' * w' - x * w - (y' * z' - y * z)| ≤ 212 / 10 ^ 12 := by
    refine (abs_sub _ _).trans ?_
    norm_num only at h1 h2 ⊢
    linarith
  have h5 : |(x * w - y * z) / l * (l - l')| ≤ 640 * (328 / 10 ^ 15) := by
    rw [abs_mul, abs_sub_comm l l']
    exact mul_le_mul h3 hn (abs_nonneg _) (by norm_num)
  rw [e, ← add_div, abs_div, abs_of_pos hl0', div_le_iff₀ hl0']
  refine (abs_add_le _ _).trans ?_
  have h6 := mul_le_mul_of_nonneg_left hl' (show (0 : ℝ) ≤ 5 / 10 ^ 8 by norm_num)
  norm_num only at h4 h5 h6 ⊢
  linarith

/-- A vector that changes little turns by little. -/
theorem turn_near {x y x' y' : ℝ} (hx : |x' - x| ≤ 164 / 10 ^ 15) (hy : |y' - y| ≤ 164 / 10 ^ 15) (hl : 99 / 10 ^ 4 ≤ ‖(⟨x, y⟩ : ℂ)‖) :
    (⟨x', y'⟩ : ℂ) ≠ 0 ∧ ∃ φ : ℝ, |φ| ≤ 1 / 10 ^ 9 ∧ (⟨x', y'⟩ : ℂ) / ‖(⟨x', y'⟩ : ℂ)‖ = ⟨x, y⟩ / ‖(⟨x, y⟩ : ℂ)‖ * Complex.exp (φ * Complex.I) := by
  have hd : ‖(⟨x', y'⟩ : ℂ) - ⟨x, y⟩‖ ≤ 328 / 10 ^ 15 := by
    rw [sub_mk]
    refine (norm_le_sum hx hy).trans (by norm_num)
  generalize (⟨x', y'⟩ : ℂ) = v' at *
  generalize (⟨x, y⟩ : ℂ) = v at *
  have hv0 : 0 < ‖v‖ := lt_of_lt_of_le (by norm_num) hl
  have hv : v ≠ 0 := norm_pos_iff.1 hv0
  have hz : ‖v' / v - 1‖ ≤ 4 / 10 ^ 11 := by
    rw [div_sub_one hv, norm_div, div_le_iff₀ hv0]
    refine hd.trans (le_trans ?_ (mul_le_mul_of_nonneg_left hl (by norm_num)))
    norm_num
  have hre := (abs_le.1 ((Complex.abs_re_le_norm _).trans hz)).1
  have him := (Complex.abs_im_le_norm _).trans hz
  rw [Complex.sub_re, Complex.one_re] at hre
  rw [Complex.sub_im, Complex.one_im, sub_zero] at him
  have hz1 : 1 / 2 ≤ (v' / v).re := by
    norm_num at hre ⊢
    linarith
  have hz0 : 0 < (v' / v).re := lt_of_lt_of_le (by norm_num) hz1
  have hv' : v' ≠ 0 := by
    rintro rfl
    rw [zero_div] at hz0
    exact lt_irrefl _ hz0
  refine ⟨hv', Complex.arg (v' / v), ?_, ?_⟩
  · refine (abs_arg_le hz0).trans ?_
    rw [div_le_iff₀ hz0]
    refine him.trans (le_trans ?_ (mul_le_mul_of_nonneg_left hz1 (by norm_num)))
    norm_num
  · rw [← direction (div_ne_zero hv' hv), norm_div]
    have hn1 : (‖v‖ : ℂ) ≠ 0 := by simpa using hv
    have hn2 : (‖v'‖ : ℂ) ≠ 0 := by simpa using hv'
    push_cast
    field_simp

/-- Scaling does not turn. -/
theorem scaled_direction {ρ : ℝ} (hρ : 0 < ρ) (x y : ℝ) : (⟨ρ * x, ρ * y⟩ : ℂ) / ‖(⟨ρ * x, ρ * y⟩ : ℂ)‖ = ⟨x, y⟩ / ‖(⟨x, y⟩ : ℂ)‖ := by
  have h2 : (⟨ρ * x, ρ * y⟩ : ℂ) = (ρ : ℂ) * ⟨x, y⟩ := by apply Complex.ext <;> simp
  rw [h2, norm_mul, Complex.norm_real, Real.norm_eq_abs, abs_of_pos hρ, Complex.ofReal_mul]
  have : (ρ : ℂ) ≠ 0 := by exact_mod_cast hρ.ne'
  exact mul_div_mul_left _ _ this

/-- A turn that is known up to full turns, if it is less than a full turn away. -/
theorem turn_unique {θ x x₀ φ ψ : ℝ} {d e : ℂ} (hd : d ≠ 0) (h₀ : e = d * Complex.exp (((θ + x₀ : ℝ) : ℂ) * Complex.I))
    (h : e * Complex.exp (ψ * Complex.I) = d * Complex.exp (φ * Complex.I) * Complex.exp (((θ + x : ℝ) : ℂ) * Complex.I)) (hφ : |φ| ≤ 1 / 10 ^ 9) (hψ : |ψ| ≤ 1 / 10 ^ 9) (hx₀ : |x₀| ≤ 1 / 10 ^ 7)
    (hx : |x| < 2 * Real.pi - 1 / 10 ^ 6 / 2) : |x - x₀| ≤ 2 / 10 ^ 9 := by
  rw [h₀, mul_assoc, mul_assoc, mul_right_inj' hd, ← Complex.exp_add, ← Complex.exp_add, Complex.exp_eq_exp_iff_exists_int] at h
  obtain ⟨n, hn⟩ := h
  have hI : ((θ + x₀ + ψ - (φ + (θ + x)) : ℝ) : ℂ) * Complex.I = ((n * (2 * Real.pi) : ℝ) : ℂ) * Complex.I := by
    push_cast at hn ⊢
    linear_combination hn
  have hr : θ + x₀ + ψ - (φ + (θ + x)) = n * (2 * Real.pi) := by exact_mod_cast mul_right_cancel₀ Complex.I_ne_zero hI
  have hpi := Real.two_le_pi
  have h1 := abs_le.1 hφ
  have h2 := abs_le.1 hψ
  have h3 := abs_le.1 hx₀
  have h4 := abs_lt.1 hx
  norm_num at h1 h2 h3 h4
  have hn0 : n = 0 := by
    by_contra hne
    rcases lt_or_gt_of_ne hne with hlt | hgt
    · have : (n : ℝ) ≤ -1 := by exact_mod_cast Int.le_sub_one_of_lt hlt
      nlinarith
    · have : (1 : ℝ) ≤ n := by exact_mod_cast hgt
      nlinarith
  rw [hn0, Int.cast_zero, zero_mul] at hr
  rw [abs_le]
  norm_num
  constructor <;> linarith

section
variable {A : Arith} {u : ℝ} (hA : A.Accurate u) (hu : u ≤ 1 / 2 ^ 53)
include hA hu

/-- The angle that is computed lies in the principal range, up to rounding. -/
theorem wrap_bound {a b : Fl A} (ha : |a.val| ≤ Real.pi * (1 + 2 * u)) (hb : |b.val| ≤ Real.pi * (1 + 2 * u)) {θ : Fl A} (hθ : |θ.val| ≤ Real.pi - 1 / 10 ^ 6) :
    |(wrapAngle (a - b) - θ).val| ≤ 2 * Real.pi - 9 / 10 ^ 7 := by
  have hu0 := hA.pos
  have hpi := Real.two_le_pi
  have hpi4 := Real.pi_le_four
  have hu' : u ≤ 1 / 10 ^ 12 := hu.trans (by norm_num)
  have close : ∀ {x B : ℝ}, |x| ≤ B → B ≤ 100 → |A.rnd x - x| ≤ 1 / 10 ^ 10 := by
    intro x B h1 h2
    refine (hA.rnd x).trans ((mul_le_mul hu' (h1.trans h2) (abs_nonneg _) (by norm_num)).trans (by norm_num))
  have hup : Real.pi * (1 + 2 * u) ≤ Real.pi + 1 / 10 ^ 10 := by nlinarith
  have ha' := abs_le.1 (ha.trans hup)
  have hb' := abs_le.1 (hb.trans hup)
  have h1 := abs_le.1 (close (x := a.val - b.val) (B := 10) (by rw [abs_le]; norm_num at ha' hb' ⊢; constructor <;> linarith) (by norm_num))
  have e1 : (a - b).val = A.rnd (a.val - b.val) := rfl
  rw [← e1] at h1
  have h2 := abs_le.1 (close (x := Real.pi) (B := 4) (by rw [abs_of_pos (by linarith)]; exact hpi4) (by norm_num))
  have e2 : (FloatOps.pi : Fl A).val = A.rnd Real.pi := rfl
  rw [← e2] at h2
  have h3 := abs_le.1 (close (x := (1 : ℝ) + 1) (B := 2) (by norm_num) (by norm_num))
  have h4 : |((1 + 1) * FloatOps.pi : Fl A).val - 2 * Real.pi| ≤ 1 / 10 ^ 8 := by
    have e3 : ((1 + 1) * FloatOps.pi : Fl A).val = A.rnd (A.rnd (1 + 1) * (FloatOps.pi : Fl A).val) := rfl
    have h5 : |A.rnd (1 + 1) * (FloatOps.pi : Fl A).val - 2 * Real.pi| ≤ 1 / 10 ^ 9 := by
      have e4 : A.rnd (1 + 1) * (FloatOps.pi : Fl A).val - 2 * Real.pi = (A.rnd (1 + 1) - (1 + 1)) * (FloatOps.pi : Fl A).val + 2 * ((FloatOps.pi : Fl A).val - Real.pi) := by ring
      rw [e4]
      refine (abs_add_le _ _).trans ?_
      rw [abs_mul, abs_mul]
      have k1 : |A.rnd (1 + 1) - (1 + 1)| ≤ 1 / 10 ^ 10 := abs_le.2 h3
      have k2 : |(FloatOps.pi : Fl A).val| ≤ 5 := by rw [abs_le]; norm_num at h2 ⊢; constructor <;> linarith
      have k3 : |(FloatOps.pi : Fl A).val - Real.pi| ≤ 1 / 10 ^ 10 := abs_le.2 h2
      have k4 := mul_le_mul k1 k2 (abs_nonneg _) (by norm_num)
      rw [abs_two]
      norm_num only at k3 k4 ⊢
      linarith
    have h6 := abs_le.1 h5
    have h7 := abs_le.1 (close (x := A.rnd (1 + 1) * (FloatOps.pi : Fl A).val) (B := 9) (by rw [abs_le]; norm_num at h6 ⊢; constructor <;> linarith) (by norm_num))
    rw [e3, abs_le]
    norm_num at h6 h7 ⊢
    constructor <;> linarith
  have h5 := abs_le.1 h4
  have hw : |(wrapAngle (a - b)).val| ≤ Real.pi + 3 / 10 ^ 8 := by
    unfold wrapAngle
    split_ifs with c1 c2
    · have c1' : (FloatOps.pi : Fl A).val < (a - b).val := of_decide_eq_true c1
      have e3 : (a - b - (1 + 1) * FloatOps.pi : Fl A).val = A.rnd ((a - b).val - ((1 + 1) * FloatOps.pi : Fl A).val) := rfl
      have h6 := abs_le.1 (close (x := (a - b).val - ((1 + 1) * FloatOps.pi : Fl A).val) (B := 20) (by rw [abs_le]; norm_num at h1 h5 ha' hb' ⊢; constructor <;> linarith) (by norm_num))
      rw [e3, abs_le]
      norm_num at h1 h2 h5 h6 ha' hb' ⊢
      constructor <;> linarith
    · have c2' : (a - b).val < -(FloatOps.pi : Fl A).val := of_decide_eq_true c2
      have e3 : (a - b + (1 + 1) * FloatOps.pi : Fl A).val = A.rnd ((a - b).val + ((1 + 1) * FloatOps.pi : Fl A).val) := rfl
      have h6 := abs_le.1 (close (x := (a - b).val + ((1 + 1) * FloatOps.pi : Fl A).val) (B := 20) (by rw [abs_le]; norm_num at h1 h5 ha' hb' ⊢; constructor <;> linarith) (by norm_num))
      rw [e3, abs_le]
      norm_num at h1 h2 h5 h6 ha' hb' ⊢
      constructor <;> linarith
    · have c1' : ¬ (FloatOps.pi : Fl A).val < (a - b).val := fun hc => c1 (decide_eq_true hc)
      have c2' : ¬ (a - b).val < -(FloatOps.pi : Fl A).val := fun hc => c2 (decide_eq_true hc)
      rw [abs_le]
      norm_num at h2 c1' c2' ⊢
      constructor <;> linarith
  have hw' := abs_le.1 hw
  have hθ' := abs_le.1 hθ
  have h6 := abs_le.1 (close (x := (wrapAngle (a - b)).val - θ.val) (B := 20) (by rw [abs_le]; norm_num at hw' hθ' ⊢; constructor <;> linarith) (by norm_num))
  have e3 : (wrapAngle (a - b) - θ).val = A.rnd ((wrapAngle (a - b)).val - θ.val) := rfl
  rw [e3, abs_le]
  norm_num at h6 hw' hθ' ⊢
  constructor <;> linarith

variable {k : Fl A} (hk : 0 < k.val)

theorem scaled_difference_small {x y : Fl A} (hx : |k.val * x.val| ≤ 160) (hy : |k.val * y.val| ≤ 160) :
    |((x * k).val - (y * k).val) - k.val * (x.val - y.val)| ≤ 164 / 10 ^ 15 ∧ |k.val * (x.val - y.val)| ≤ 320 := by
  refine ⟨(scaled_difference hA hu (hx.trans (by norm_num)) (hy.trans (by norm_num))).1, ?_⟩
  rw [mul_sub]
  exact (abs_sub _ _).trans (by linarith)

omit hA hu in
include hk in
theorem scaled_length (x y : ℝ) : ‖(⟨k.val * x, k.val * y⟩ : ℂ)‖ = k.val * ‖(⟨x, y⟩ : ℂ)‖ := by
  have h2 : (⟨k.val * x, k.val * y⟩ : ℂ) = (k.val : ℂ) * ⟨x, y⟩ := by apply Complex.ext <;> simp
  rw [h2, norm_mul, Complex.norm_real, Real.norm_eq_abs, abs_of_pos hk]

theorem scaled_value {x : Fl A} (hx : |k.val * x.val| ≤ 160) : |A.rnd (x.val * k.val) - k.val * x.val| ≤ 82 / 10 ^ 15 ∧ |A.rnd (x.val * k.val)| ≤ 161 := by
  have h1 := fl_scaling hA hu (hx.trans (by norm_num))
  refine ⟨h1, ?_⟩
  have := abs_sub_abs_le_abs_sub (A.rnd (x.val * k.val)) (k.val * x.val)
  norm_num only at h1 hx ⊢
  linarith

include hk

theorem small_pld {x y x1 y1 x2 y2 d d' : Fl A} {t : ℝ} (hx : |k.val * x.val| ≤ 160) (hy : |k.val * y.val| ≤ 160) (hx1 : |k.val * x1.val| ≤ 160) (hy1 : |k.val * y1.val| ≤ 160)
    (hx2 : |k.val * x2.val| ≤ 160) (hy2 : |k.val * y2.val| ≤ 160) (hd : |k.val * d.val| ≤ 160) (hd' : d'.val = A.rnd (d.val * k.val))
    (hl : 99 / 10 ^ 4 ≤ k.val * ‖(⟨x2.val - x1.val, y2.val - y1.val⟩ : ℂ)‖)
    (ht : t = 1 / ‖(⟨x2.val - x1.val, y2.val - y1.val⟩ : ℂ)‖ * ((x2.val - x1.val) * (y.val - y1.val) - (y2.val - y1.val) * (x.val - x1.val)) - d.val) (h : k.val * |t| ≤ 102 / 10 ^ 9) :
    |(pldResGrad (x * k) (y * k) (x1 * k) (y1 * k) (x2 * k) (y2 * k) d').1.val| ≤ 2 / 10 ^ 7 := by
  obtain ⟨a1, b1⟩ := scaled_difference_small hA hu hx2 hx1
  obtain ⟨a2, b2⟩ := scaled_difference_small hA hu hy2 hy1
  obtain ⟨a3, b3⟩ := scaled_difference_small hA hu hx hx1
  obtain ⟨a4, b4⟩ := scaled_difference_small hA hu hy hy1
  rw [← scaled_length hk] at hl
  obtain ⟨h1, h2⟩ := height_near a1 a2 a3 a4 b1 b2 b3 b4 hl
  have h3 := fl_pld hA (x * k) (y * k) (x1 * k) (y1 * k) (x2 * k) (y2 * k) d' (sqrt_sq_add _ _) (lt_of_lt_of_le (by norm_num) h1)
  have p1 := (product_near_small a1 a4 b1 b4).2
  have p2 := (product_near_small a2 a3 b2 b3).2
  have e : 1 / ‖(⟨k.val * (x2.val - x1.val), k.val * (y2.val - y1.val)⟩ : ℂ)‖ * (k.val * (x2.val - x1.val) * (k.val * (y.val - y1.val)) - k.val * (y2.val - y1.val) * (k.val * (x.val - x1.val))) =
      k.val * (t + d.val) := by
    rw [ht, scaled_length hk, one_div, mul_inv]
    field_simp
    ring
  rw [e] at h2
  obtain ⟨d1, d2⟩ := scaled_value hA hu hd
  rw [← hd'] at d1 d2
  set l' := ‖(⟨(x2 * k).val - (x1 * k).val, (y2 * k).val - (y1 * k).val⟩ : ℂ)‖
  have h4 : (|((x2 * k).val - (x1 * k).val) * ((y * k).val - (y1 * k).val)| + |((y2 * k).val - (y1 * k).val) * ((x * k).val - (x1 * k).val)|) / l' ≤ 204802 / (98 / 10 ^ 4) :=
    div_le_div₀ (by norm_num) (by linarith) (by norm_num) h1
  have h5 := h3.trans (mul_le_mul (mul_le_mul_of_nonneg_left hu (by norm_num)) (add_le_add h4 d2) (by positivity) (by norm_num))
  have h6 : |k.val * t| ≤ 102 / 10 ^ 9 := by rwa [abs_mul, abs_of_pos hk]
  rw [mul_add] at h2
  rw [abs_le] at h2 h5 h6 d1 ⊢
  norm_num at h2 h5 h6 d1 ⊢
  constructor <;> linarith [h2.1, h2.2, h5.1, h5.2, h6.1, h6.2, d1.1, d1.2]

theorem small_lct {x1 y1 x2 y2 cx cy r : Fl A} {t : ℝ} (hx : |k.val * cx.val| ≤ 160) (hy : |k.val * cy.val| ≤ 160) (hx1 : |k.val * x1.val| ≤ 160) (hy1 : |k.val * y1.val| ≤ 160)
    (hx2 : |k.val * x2.val| ≤ 160) (hy2 : |k.val * y2.val| ≤ 160) (hd : |k.val * r.val| ≤ 160)
    (hl : 99 / 10 ^ 4 ≤ k.val * ‖(⟨x2.val - x1.val, y2.val - y1.val⟩ : ℂ)‖)
    (ht : t = 1 / ‖(⟨x2.val - x1.val, y2.val - y1.val⟩ : ℂ)‖ * |(x2.val - x1.val) * (cy.val - y1.val) - (y2.val - y1.val) * (cx.val - x1.val)| - r.val) (h : k.val * |t| ≤ 102 / 10 ^ 9) :
    |(lctResGrad (x1 * k) (y1 * k) (x2 * k) (y2 * k) (cx * k) (cy * k) (r * k)).1.val| ≤ 2 / 10 ^ 7 := by
  obtain ⟨a1, b1⟩ := scaled_difference_small hA hu hx2 hx1
  obtain ⟨a2, b2⟩ := scaled_difference_small hA hu hy2 hy1
  obtain ⟨a3, b3⟩ := scaled_difference_small hA hu hx hx1
  obtain ⟨a4, b4⟩ := scaled_difference_small hA hu hy hy1
  obtain ⟨a5, b5⟩ := scaled_difference_small hA hu hy2 hy
  rw [← scaled_length hk] at hl
  obtain ⟨h1, h2⟩ := height_near a1 a2 a3 a4 b1 b2 b3 b4 hl
  have hl' : √(((x1 * k).val - (x2 * k).val) * ((x1 * k).val - (x2 * k).val) + ((y1 * k).val - (y2 * k).val) * ((y1 * k).val - (y2 * k).val)) =
      ‖(⟨(x2 * k).val - (x1 * k).val, (y2 * k).val - (y1 * k).val⟩ : ℂ)‖ := by
    rw [← sqrt_sq_add]
    congr 1
    ring
  have h3 := fl_lct hA (x1 * k) (y1 * k) (x2 * k) (y2 * k) (cx * k) (cy * k) (r * k) hl' (lt_of_lt_of_le (by norm_num) h1)
  have v1 := (scaled_value hA hu hx1).2
  have v2 := (scaled_value hA hu hx2).2
  have v3 := (scaled_value hA hu hx).2
  have difference : ∀ {p q : ℝ}, |p - q| ≤ 164 / 10 ^ 15 → |q| ≤ 320 → |p| ≤ 321 := by
    intro p q h1 h2
    have := abs_sub_abs_le_abs_sub p q
    norm_num only at h1 h2 ⊢
    linarith
  have prod : ∀ {p q : ℝ}, |p| ≤ 161 → |q| ≤ 321 → |p * q| ≤ 51681 := by
    intro p q h1 h2
    rw [abs_mul]
    exact (mul_le_mul h1 h2 (abs_nonneg _) (by norm_num)).trans (by norm_num)
  have p1 := prod v1 (difference a5 b5)
  have p2 := prod v2 (difference a4 b4)
  have p3 := prod v3 (difference a2 b2)
  change |(x1 * k).val * ((y2 * k).val - (cy * k).val)| ≤ _ at p1
  change |(x2 * k).val * ((cy * k).val - (y1 * k).val)| ≤ _ at p2
  change |(cx * k).val * ((y2 * k).val - (y1 * k).val)| ≤ _ at p3
  rw [abs_mul, abs_sub_comm, ← abs_mul] at p3
  have e : 1 / ‖(⟨k.val * (x2.val - x1.val), k.val * (y2.val - y1.val)⟩ : ℂ)‖ * |k.val * (x2.val - x1.val) * (k.val * (cy.val - y1.val)) - k.val * (y2.val - y1.val) * (k.val * (cx.val - x1.val))| =
      k.val * (t + r.val) := by
    rw [ht, scaled_length hk, show k.val * (x2.val - x1.val) * (k.val * (cy.val - y1.val)) - k.val * (y2.val - y1.val) * (k.val * (cx.val - x1.val)) =
      k.val * k.val * ((x2.val - x1.val) * (cy.val - y1.val) - (y2.val - y1.val) * (cx.val - x1.val)) by ring, abs_mul, abs_of_pos (mul_pos hk hk), one_div, mul_inv]
    field_simp
    ring
  set l' := ‖(⟨(x2 * k).val - (x1 * k).val, (y2 * k).val - (y1 * k).val⟩ : ℂ)‖
  set l := ‖(⟨k.val * (x2.val - x1.val), k.val * (y2.val - y1.val)⟩ : ℂ)‖
  have hm : 0 ≤ 1 / l' := by positivity
  have hm' : 0 ≤ 1 / l := by positivity
  have h2' := (abs_abs_sub_abs_le _ _).trans h2
  rw [abs_mul, abs_mul, abs_of_nonneg hm, abs_of_nonneg hm', e] at h2'
  have e' : (x1 * k).val * ((y2 * k).val - (cy * k).val) + (x2 * k).val * ((cy * k).val - (y1 * k).val) + (cx * k).val * ((y1 * k).val - (y2 * k).val) =
      ((x2 * k).val - (x1 * k).val) * ((cy * k).val - (y1 * k).val) - ((y2 * k).val - (y1 * k).val) * ((cx * k).val - (x1 * k).val) := by ring
  rw [e'] at h3
  obtain ⟨d1, d2⟩ := scaled_value hA hu hd
  change |(r * k).val - _| ≤ _ at d1
  change |(r * k).val| ≤ _ at d2
  have h4 : (|(x1 * k).val * ((y2 * k).val - (cy * k).val)| + |(x2 * k).val * ((cy * k).val - (y1 * k).val)| + |(cx * k).val * ((y1 * k).val - (y2 * k).val)|) / l' ≤ 155043 / (98 / 10 ^ 4) :=
    div_le_div₀ (by norm_num) (by linarith) (by norm_num) h1
  have h5 := h3.trans (mul_le_mul (mul_le_mul_of_nonneg_left hu (by norm_num)) (add_le_add h4 d2) (by positivity) (by norm_num))
  have h6 : |k.val * t| ≤ 102 / 10 ^ 9 := by rwa [abs_mul, abs_of_pos hk]
  rw [mul_add] at h2'
  rw [abs_le] at h2' h5 h6 d1 ⊢
  norm_num at h2' h5 h6 d1 ⊢
  constructor <;> linarith [h2'.1, h2'.2, h5.1, h5.2, h6.1, h6.2, d1.1, d1.2]

/-- The angle between two scaled vectors. -/
theorem small_turn {a b c d e f g h θ α β : Fl A} {t : ℝ} (ha : |k.val * a.val| ≤ 160) (hb : |k.val * b.val| ≤ 160) (hc : |k.val * c.val| ≤ 160) (hd : |k.val * d.val| ≤ 160)
    (he : |k.val * e.val| ≤ 160) (hf : |k.val * f.val| ≤ 160) (hg : |k.val * g.val| ≤ 160) (hh : |k.val * h.val| ≤ 160)
    (hl : 99 / 10 ^ 4 ≤ k.val * ‖(⟨a.val - c.val, b.val - d.val⟩ : ℂ)‖) (hl' : 99 / 10 ^ 4 ≤ k.val * ‖(⟨e.val - g.val, f.val - h.val⟩ : ℂ)‖)
    (hα : α = FloatOps.atan2 (f * k - h * k) (e * k - g * k)) (hβ : β = FloatOps.atan2 (b * k - d * k) (a * k - c * k)) (hθ : |θ.val| ≤ Real.pi - 1 / 10 ^ 6)
    (ht : TurnedBy (θ.val + t) ⟨a.val - c.val, b.val - d.val⟩ ⟨e.val - g.val, f.val - h.val⟩) (h0 : |t| ≤ 1 / 10 ^ 7) :
    |(wrapAngle (α - β) - θ).val| ≤ 2 / 10 ^ 7 := by
  have a1 := (scaled_difference_small hA hu ha hc).1
  have a2 := (scaled_difference_small hA hu hb hd).1
  have a3 := (scaled_difference_small hA hu he hg).1
  have a4 := (scaled_difference_small hA hu hf hh).1
  rw [← scaled_length hk] at hl hl'
  obtain ⟨n1, φ, hφ, e1⟩ := turn_near a1 a2 hl
  obtain ⟨n2, ψ, hψ, e2⟩ := turn_near a3 a4 hl'
  rw [scaled_direction hk] at e1 e2
  obtain ⟨x, hx, hres⟩ := fl_angle hA n1 n2 α β (by rw [hα]; rfl) (by rw [hβ]; rfl) θ
  have hu0 := hA.pos
  have hpi := Real.two_le_pi
  have hpi4 := Real.pi_le_four
  have hθ4 : |θ.val| ≤ 4 := hθ.trans (by linarith [show (0 : ℝ) ≤ 1 / 10 ^ 6 by norm_num])
  have hres' : |(wrapAngle (α - β) - θ).val - x| ≤ 1 / 10 ^ 9 := by
    refine hres.trans ((mul_le_mul (mul_le_mul_of_nonneg_left hu (by norm_num)) (show 4 * Real.pi + |θ.val| ≤ 20 by linarith) (by positivity) (by norm_num)).trans ?_)
    norm_num
  have bound : ∀ {y : Fl A} {p q : ℝ}, y.val = A.atan2 q p → |y.val| ≤ Real.pi * (1 + 2 * u) := by
    intro y p q hy
    have h1 := hA.atan2 p q
    have h2 := Complex.abs_arg_le_pi ⟨p, q⟩
    rw [← hy] at h1
    have h3 := abs_sub_abs_le_abs_sub y.val (Complex.arg ⟨p, q⟩)
    have h4 := mul_le_mul_of_nonneg_left h2 (show 0 ≤ 2 * u by linarith)
    linarith
  have hw := wrap_bound hA hu (bound (y := α) (by rw [hα]; rfl)) (bound (y := β) (by rw [hβ]; rfl)) hθ
  have hx2 : |x| < 2 * Real.pi - 1 / 10 ^ 6 / 2 := by
    have := abs_sub_abs_le_abs_sub x (wrapAngle (α - β) - θ).val
    rw [abs_sub_comm] at this
    norm_num at hres' hw ⊢
    linarith
  have hd0 : (⟨a.val - c.val, b.val - d.val⟩ : ℂ) / ‖(⟨a.val - c.val, b.val - d.val⟩ : ℂ)‖ ≠ 0 := by
    intro hz
    rw [hz, zero_mul] at e1
    have : (‖(⟨(a * k).val - (c * k).val, (b * k).val - (d * k).val⟩ : ℂ)‖ : ℂ) ≠ 0 := by simpa using n1
    exact div_ne_zero n1 this e1
  have hx1 := hx
  rw [TurnedBy, e1, e2] at hx1
  rw [TurnedBy] at ht
  have h7 := turn_unique hd0 ht hx1 hφ hψ h0 hx2
  have h8 := abs_sub_le (wrapAngle (α - β) - θ).val x t
  have h9 := abs_sub_abs_le_abs_sub (wrapAngle (α - β) - θ).val t
  norm_num at h0 hres' h7 ⊢
  linarith

end

/-- The residuals of one constraint, in the scaled problem, for all kinds of constraints. -/
theorem Rel.scaled_any {A : Arith} {u : ℝ} (hA : A.Accurate u) (hu : u ≤ 1 / 2 ^ 53) {s : System (Fl A)} {st : Store (Fl A)} (hr : Rel s st) {k : Fl A} (hk : 0 < k.val)
    (hv : ∀ x ∈ s.vars, |k.val * x.val| ≤ 160) (hd : ∀ e ∈ s.expressions, ∀ d, e.lengthParameter = some d → |k.val * d.val| ≤ 160) {σ : ℝ} (hσ : 0 ≤ σ) (hkσ : k.val * σ ≤ 101 / 100)
    (hkσ' : 99 / 100 ≤ k.val * σ) {con : Spec.Con (Fl A)} (hcon : con ∈ st.cons) (hroom : Roomy st.real (σ / 100) con.real)
    (hdev : ∃ x t, Deviation st.real con.real x t ∧ |x| ≤ σ ^ con.degree / 10 ^ 7) :
    ∀ e ∈ encCon st.elems con, ∀ r, (e.transform k).calculateResidual (identityMap (s.vars.map (fun v => v * k))) = .ok r → |r.val| ≤ 2 / 10 ^ 7 := by
  have old : ∀ n, con.dimension = some n → con.degree = n →
      ∀ e ∈ encCon st.elems con, ∀ r, (e.transform k).calculateResidual (identityMap (s.vars.map (fun v => v * k))) = .ok r → |r.val| ≤ 2 / 10 ^ 7 := by
    intro n h1 h2 e he r h
    obtain ⟨x, t, h3, h4⟩ := hdev
    rw [h2] at h4
    exact (hr.scaled_con hA hu hk.le (fun x hx => (hv x hx).trans (by norm_num)) (fun e he d h => (hd e he d h).trans (by norm_num)) hσ hkσ hcon ⟨n, x, t, h1, h3, h4⟩ e he r h).trans (by norm_num)
  have one : ∀ {x : ℝ}, |x| ≤ σ ^ 1 / 10 ^ 7 → k.val * |x| ≤ 102 / 10 ^ 9 := by
    intro x hx
    rw [pow_one] at hx
    refine (mul_le_mul_of_nonneg_left hx hk.le).trans ?_
    rw [← mul_div_assoc]
    exact (div_le_div_of_nonneg_right hkσ (by norm_num)).trans (by norm_num)
  have long : ∀ {x y z w : ℝ}, σ / 100 ≤ dist (⟨x, y⟩ : ℂ) ⟨z, w⟩ → 99 / 10 ^ 4 ≤ k.val * ‖(⟨x - z, y - w⟩ : ℂ)‖ := by
    intro x y z w h
    rw [Complex.dist_eq, sub_mk] at h
    refine le_trans ?_ (mul_le_mul_of_nonneg_left h hk.le)
    rw [← mul_div_assoc, le_div_iff₀ (by norm_num)]
    exact le_trans (by norm_num) hkσ'
  have apart : ∀ {p q : ℂ}, σ / 100 ≤ dist p q → p ≠ q := by
    rintro p q h rfl
    rw [dist_self] at h
    have : k.val * σ ≤ 0 := mul_nonpos_of_nonneg_of_nonpos hk.le (by linarith)
    linarith
  have get : ∀ {i : Nat} {x : Fl A}, idx s.vars i = .ok x → idx (s.vars.map (fun v => v * k)) i = .ok (x * k) ∧ |k.val * x.val| ≤ 160 := by
    intro i x h
    rw [idx_eq_ok] at h
    exact ⟨idx_of (by rw [List.getElem?_map, h]; rfl), hv x (List.mem_of_getElem? h)⟩
  have hpoint : ∀ {p}, st.IsPoint p → ∃ x y, st.elems[p]? = some (.point x y) ∧ idx (s.vars.map (fun v => v * k)) (off st.elems p) = .ok (x * k) ∧
      idx (s.vars.map (fun v => v * k)) (off st.elems p + 1) = .ok (y * k) ∧ |k.val * x.val| ≤ 160 ∧ |k.val * y.val| ≤ 160 := by
    rintro p ⟨x, y, h⟩
    have h1 := get (hr.point_vars h).1
    have h2 := get (hr.point_vars h).2
    exact ⟨x, y, h, h1.1, h2.1, h1.2, h2.2⟩
  have hline : ∀ {l}, st.IsLine l → ∃ p q x y z w, st.elems[l]? = some (.line p q) ∧ st.elems[p]? = some (.point x y) ∧ st.elems[q]? = some (.point z w) ∧
      (idx (s.vars.map (fun v => v * k)) (lineOff st.elems l).1 = .ok (x * k) ∧ idx (s.vars.map (fun v => v * k)) ((lineOff st.elems l).1 + 1) = .ok (y * k) ∧
      idx (s.vars.map (fun v => v * k)) (lineOff st.elems l).2 = .ok (z * k) ∧ idx (s.vars.map (fun v => v * k)) ((lineOff st.elems l).2 + 1) = .ok (w * k)) ∧
      |k.val * x.val| ≤ 160 ∧ |k.val * y.val| ≤ 160 ∧ |k.val * z.val| ≤ 160 ∧ |k.val * w.val| ≤ 160 := by
    intro l hl
    obtain ⟨p, q, h1, ⟨x0, y0, h2⟩, ⟨x1, y1, h3⟩, h4, -⟩ := hr.line hl
    have a1 := get (hr.point_vars h2).1
    have a2 := get (hr.point_vars h2).2
    have a3 := get (hr.point_vars h3).1
    have a4 := get (hr.point_vars h3).2
    rw [h4]
    exact ⟨p, q, x0, y0, x1, y1, h1, h2, h3, ⟨a1.1, a2.1, a3.1, a4.1⟩, a1.2, a2.2, a3.2, a4.2⟩
  have hcirc : ∀ {l}, st.IsCircle l → ∃ p q x y z, st.elems[l]? = some (.circle p q) ∧ st.elems[p]? = some (.point x y) ∧ st.elems[q]? = some (.length z) ∧
      (idx (s.vars.map (fun v => v * k)) (circOff st.elems l).1 = .ok (x * k) ∧ idx (s.vars.map (fun v => v * k)) ((circOff st.elems l).1 + 1) = .ok (y * k) ∧
      idx (s.vars.map (fun v => v * k)) (circOff st.elems l).2 = .ok (z * k)) ∧ |k.val * x.val| ≤ 160 ∧ |k.val * y.val| ≤ 160 ∧ |k.val * z.val| ≤ 160 := by
    intro l hl
    obtain ⟨p, q, h1, ⟨x0, y0, h2⟩, ⟨x1, h3⟩, h4, -⟩ := hr.circle hl
    have a1 := get (hr.point_vars h2).1
    have a2 := get (hr.point_vars h2).2
    have a3 := get (hr.length_vars h3)
    rw [h4]
    exact ⟨p, q, x0, y0, x1, h1, h2, h3, ⟨a1.1, a2.1, a3.1⟩, a1.2, a2.2, a3.2⟩
  have hok := hr.wfCon con hcon
  cases con
  case pointPointPointAngle =>
    intro e hce r h
    have he' : e ∈ s.expressions := by
      rw [hr.exprs, List.mem_flatMap]
      exact ⟨_, hcon, hce⟩
    obtain ⟨x, t, hdv, hx⟩ := hdev
    simp only [Store.ConOk] at hok
    simp only [encCon, List.mem_cons, List.not_mem_nil, or_false] at hce
    obtain ⟨x0, y0, e1, a1, a2, b1, b2⟩ := hpoint hok.1
    obtain ⟨x1, y1, e2, a3, a4, b3, b4⟩ := hpoint hok.2.1
    obtain ⟨x2, y2, e3, a5, a6, b5, b6⟩ := hpoint hok.2.2
    simp only [Deviation, Con.real, pointIs_iff (real_point e1), pointIs_iff (real_point e2), pointIs_iff (real_point e3), exists_and_left, exists_eq_left] at hdv
    simp only [Roomy, Con.real, pointIs_iff (real_point e1), pointIs_iff (real_point e2), pointIs_iff (real_point e3), exists_and_left, exists_eq_left] at hroom
    subst hce
    simp only [Expr.transform, Expr.calculateResidual, Expr.variableIndices, List.mapM_cons, List.mapM_nil, identityMap, Variable.value, a1, a2, a3, a4, a5, a6, ok_bind, pure_eq_ok,
      Expr.computeResidualAndGradient, Except.ok.injEq] at h
    rw [← h]
    have ht := hdv.1
    rw [sub_mk, sub_mk] at ht
    exact small_turn hA hu hk b1 b2 b3 b4 b5 b6 b3 b4 (long hroom.2.1) (long hroom.2.2) rfl rfl hroom.1 ht (by simpa [Con.degree] using hx)
  case pointLineDistance =>
    intro e hce r h
    have he' : e ∈ s.expressions := by
      rw [hr.exprs, List.mem_flatMap]
      exact ⟨_, hcon, hce⟩
    obtain ⟨x, t, hdv, hx⟩ := hdev
    simp only [Store.ConOk] at hok
    simp only [encCon, List.mem_cons, List.not_mem_nil, or_false] at hce
    obtain ⟨x0, y0, e1, a1, a2, b1, b2⟩ := hpoint hok.1
    obtain ⟨p, q, x1, y1, x2, y2, e2, e3, e4, ⟨a3, a4, a5, a6⟩, b3, b4, b5, b6⟩ := hline hok.2
    simp only [Deviation, Con.real, pointIs_iff (real_point e1), lineIs_iff (real_line e2) (real_point e3) (real_point e4), exists_and_left, exists_eq_left, and_assoc] at hdv
    simp only [Roomy, Con.real, lineIs_iff (real_line e2) (real_point e3) (real_point e4), exists_and_left, exists_eq_left, and_assoc] at hroom
    subst hce
    simp only [Expr.transform, Expr.calculateResidual, Expr.variableIndices, List.mapM_cons, List.mapM_nil, identityMap, Variable.value, a1, a2, a3, a4, a5, a6, ok_bind, pure_eq_ok,
      Expr.computeResidualAndGradient, Except.ok.injEq] at h
    rw [← h]
    rename_i d
    have ht := (signedDistance_iff (apart hroom) _ _).2 hdv.1
    refine small_pld hA hu hk b1 b2 b3 b4 b5 b6 (hd _ he' d rfl) (by show A.rnd _ = A.rnd _; rw [mul_comm]) (long (by rwa [dist_comm])) ?_ (one hx)
    rw [one_div, inv_mul_eq_div, eq_sub_iff_add_eq, add_comm, ← ht, sub_mk, sub_mk]
    rfl
  case lineLineAngle =>
    intro e hce r h
    have he' : e ∈ s.expressions := by
      rw [hr.exprs, List.mem_flatMap]
      exact ⟨_, hcon, hce⟩
    obtain ⟨x, t, hdv, hx⟩ := hdev
    simp only [Store.ConOk] at hok
    simp only [encCon, List.mem_cons, List.not_mem_nil, or_false] at hce
    obtain ⟨p, q, x1, y1, x2, y2, e2, e3, e4, ⟨a3, a4, a5, a6⟩, b3, b4, b5, b6⟩ := hline hok.1
    obtain ⟨p', q', x1', y1', x2', y2', e2', e3', e4', ⟨a3', a4', a5', a6'⟩, b3', b4', b5', b6'⟩ := hline hok.2
    simp only [Deviation, Con.real, lineIs_iff (real_line e2) (real_point e3) (real_point e4), lineIs_iff (real_line e2') (real_point e3') (real_point e4'), exists_and_left, exists_eq_left,
      and_assoc] at hdv
    simp only [Roomy, Con.real, lineIs_iff (real_line e2) (real_point e3) (real_point e4), lineIs_iff (real_line e2') (real_point e3') (real_point e4'), exists_and_left, exists_eq_left,
      and_assoc] at hroom
    subst hce
    simp only [Expr.transform, Expr.calculateResidual, Expr.variableIndices, List.mapM_cons, List.mapM_nil, identityMap, Variable.value, a3, a4, a5, a6, a3', a4', a5', a6', ok_bind, pure_eq_ok,
      Expr.computeResidualAndGradient, Except.ok.injEq] at h
    rw [← h]
    have ht := hdv.1
    rw [sub_mk, sub_mk] at ht
    exact small_turn hA hu hk b5 b6 b3 b4 b5' b6' b3' b4' (long (by rw [dist_comm]; exact hroom.2.1)) (long (by rw [dist_comm]; exact hroom.2.2)) rfl rfl hroom.1 ht (by simpa [Con.degree] using hx)
  case lineCircleTangency =>
    intro e hce r h
    obtain ⟨x, t, hdv, hx⟩ := hdev
    simp only [Store.ConOk] at hok
    simp only [encCon, List.mem_cons, List.not_mem_nil, or_false] at hce
    obtain ⟨p, q, x1, y1, x2, y2, e2, e3, e4, ⟨a3, a4, a5, a6⟩, b3, b4, b5, b6⟩ := hline hok.1
    obtain ⟨p', q', x1', y1', x2', e2', e3', e4', ⟨a3', a4', a5'⟩, b3', b4', b5'⟩ := hcirc hok.2
    simp only [Deviation, Con.real, lineIs_iff (real_line e2) (real_point e3) (real_point e4), circleIs_iff (real_circle e2') (real_point e3') (real_length e4'), exists_and_left, exists_eq_left,
      and_assoc] at hdv
    simp only [Roomy, Con.real, lineIs_iff (real_line e2) (real_point e3) (real_point e4), exists_and_left, exists_eq_left, and_assoc] at hroom
    subst hce
    simp only [Expr.transform, Expr.calculateResidual, Expr.variableIndices, List.mapM_cons, List.mapM_nil, identityMap, Variable.value, a3, a4, a5, a6, a3', a4', a5', ok_bind, pure_eq_ok,
      Expr.computeResidualAndGradient, Except.ok.injEq] at h
    rw [← h]
    refine small_lct hA hu hk b3' b4' b3 b4 b5 b6 b5' (long (by rwa [dist_comm])) ?_ (one hx)
    rw [hdv.1, infDist_line (apart hroom), one_div, inv_mul_eq_div, sub_mk, sub_mk]
    rfl
  all_goals exact old _ rfl rfl

end Fiksi
