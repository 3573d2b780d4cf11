import Verif.Spec.Rounding
import Verif.Proofs.Geometry
import Mathlib.Analysis.SpecialFunctions.Trigonometric.Bounds
/-!
# Rounding errors of the residuals
-/
namespace Fiksi
open Spec

/-- `x'` is `x` up to a relative error `e`. -/
def Close (e x' x : ℝ) : Prop := |x' - x| ≤ e * |x|

section
variable {u : ℝ} (hu : 0 ≤ u) (hs : u ≤ 1 / 10 ^ 6)
include hu hs

theorem Close.mono {a b x' x : ℝ} (h : Close (a * u) x' x) (hab : a ≤ b) : Close (b * u) x' x :=
  h.trans (mul_le_mul_of_nonneg_right (mul_le_mul_of_nonneg_right hab hu) (abs_nonneg _))

theorem Close.round {rnd : ℝ → ℝ} (hr : ∀ x, |rnd x - x| ≤ u * |x|) {a b x' x : ℝ} (h : Close (a * u) x' x) (ha : 0 ≤ a) (ha' : a ≤ 100) (hab : a + 1.01 ≤ b) :
    Close (b * u) (rnd x') x := by
  unfold Close at *
  have h1 := hr x'
  have h2 : |x'| ≤ |x| + |x' - x| := by
    have := abs_add_le x (x' - x)
    rwa [add_sub_cancel] at this
  have h3 : |rnd x' - x| ≤ |rnd x' - x'| + |x' - x| := abs_sub_le _ _ _
  have hx := abs_nonneg x
  have h4 : u * |x'| ≤ u * (|x| + a * u * |x|) := mul_le_mul_of_nonneg_left (h2.trans (by linarith)) hu
  have h5 : a * u ≤ 1 / 100 := by nlinarith
  have h6 : u * (a * u * |x|) ≤ u * (1 / 100 * |x|) := mul_le_mul_of_nonneg_left (mul_le_mul_of_nonneg_right h5 hx) hu
  have h7 : (a + 1.01) * u * |x| ≤ b * u * |x| := mul_le_mul_of_nonneg_right (mul_le_mul_of_nonneg_right hab hu) hx
  nlinarith

theorem Close.mul {a b c x' x y' y : ℝ} (h : Close (a * u) x' x) (h' : Close (b * u) y' y) (ha : 0 ≤ a) (ha' : a ≤ 100) (hb : 0 ≤ b) (hb' : b ≤ 100)
    (hc : a + b + 0.01 ≤ c) : Close (c * u) (x' * y') (x * y) := by
  unfold Close at *
  have e : x' * y' - x * y = (x' - x) * y + x * (y' - y) + (x' - x) * (y' - y) := by ring
  rw [e, abs_mul x y]
  have h1 := abs_add_le ((x' - x) * y + x * (y' - y)) ((x' - x) * (y' - y))
  have h2 := abs_add_le ((x' - x) * y) (x * (y' - y))
  rw [abs_mul] at h1 h2
  rw [abs_mul x] at h2
  have hx := abs_nonneg x
  have hy := abs_nonneg y
  have h3 : |x' - x| * |y| ≤ a * u * |x| * |y| := mul_le_mul_of_nonneg_right h hy
  have h4 : |x| * |y' - y| ≤ |x| * (b * u * |y|) := mul_le_mul_of_nonneg_left h' hx
  have h5 : |x' - x| * |y' - y| ≤ (a * u * |x|) * (b * u * |y|) := mul_le_mul h h' (abs_nonneg _) (by positivity)
  have h6 : a * b * u ≤ 0.01 := by nlinarith [mul_le_mul ha' hb' hb (by norm_num : (0:ℝ) ≤ 100)]
  have h7 : 0 ≤ u * (|x| * |y|) := by positivity
  have h8 : (a * u * |x|) * (b * u * |y|) ≤ 0.01 * (u * (|x| * |y|)) := by
    have : (a * u * |x|) * (b * u * |y|) = a * b * u * (u * (|x| * |y|)) := by ring
    rw [this]
    exact mul_le_mul_of_nonneg_right h6 h7
  have h9 : (a + b + 0.01) * (u * (|x| * |y|)) ≤ c * (u * (|x| * |y|)) := mul_le_mul_of_nonneg_right hc h7
  nlinarith

theorem Close.add {a x' x y' y : ℝ} (h : Close (a * u) x' x) (h' : Close (a * u) y' y) (hx : 0 ≤ x) (hy : 0 ≤ y) : Close (a * u) (x' + y') (x + y) := by
  unfold Close at *
  have e : x' + y' - (x + y) = (x' - x) + (y' - y) := by ring
  rw [e, abs_of_nonneg (add_nonneg hx hy)]
  rw [abs_of_nonneg hx] at h
  rw [abs_of_nonneg hy] at h'
  have := abs_add_le (x' - x) (y' - y)
  linarith

theorem Close.nonneg {a x' x : ℝ} (h : Close (a * u) x' x) (ha' : a ≤ 100) (hx : 0 ≤ x) : (1 - 1 / 100) * x ≤ x' := by
  unfold Close at h
  rw [abs_of_nonneg hx] at h
  have h5 : a * u ≤ 1 / 100 := by nlinarith
  have := abs_le.1 (h.trans (mul_le_mul_of_nonneg_right h5 hx))
  linarith [this.1]

theorem Close.sqrt {a x' x : ℝ} (h : Close (a * u) x' x) (ha' : a ≤ 100) (hx : 0 ≤ x) : Close (a * u) (√x') (√x) := by
  have hx' : 0 ≤ x' := (mul_nonneg (by norm_num) hx).trans (h.nonneg hu hs ha' hx)
  unfold Close at *
  rcases hx.eq_or_lt with rfl | hpos
  · have : x' = 0 := by simpa using h
    simp [this]
  have h1 := Real.mul_self_sqrt hx
  have h2 := Real.mul_self_sqrt hx'
  have h3 := Real.sqrt_pos.2 hpos
  have h4 := Real.sqrt_nonneg x'
  have h5 : |√x' - √x| * (√x' + √x) = |x' - x| := by
    rw [← abs_of_nonneg (by positivity : 0 ≤ √x' + √x), ← abs_mul]
    congr 1
    nlinarith
  rw [abs_of_nonneg hx] at h
  rw [abs_of_nonneg h3.le]
  have h6 : |√x' - √x| * √x ≤ a * u * √x * √x := by
    rw [mul_assoc (a * u), h1]
    nlinarith [abs_nonneg (√x' - √x), mul_nonneg (abs_nonneg (√x' - √x)) h4]
  exact le_of_mul_le_mul_right h6 h3

theorem Close.recip {a b x' x : ℝ} (h : Close (a * u) x' x) (ha : 0 ≤ a) (ha' : a ≤ 9) (hab : a + 0.01 ≤ b) (hx : 0 < x) : Close (b * u) (1 / x') (1 / x) := by
  have hlow := h.nonneg hu hs (by linarith) hx.le
  have hx' : 0 < x' := lt_of_lt_of_le (by positivity) hlow
  unfold Close at *
  rw [abs_of_pos hx] at h
  rw [abs_of_pos (by positivity : 0 < 1 / x)]
  have e : 1 / x' - 1 / x = (x - x') / (x' * x) := by field_simp
  rw [e, abs_div, abs_of_pos (by positivity : 0 < x' * x), div_le_iff₀ (by positivity), abs_sub_comm]
  have h5 : a * u ≤ 1 / 1000 := by nlinarith
  have h6 : (1 - a * u) * x ≤ x' := by have := abs_le.1 h; nlinarith [this.1]
  have h7 : b * u * (1 / x) * (x' * x) = b * u * x' := by field_simp
  rw [h7]
  have h8 : a * u * x ≤ (a + 0.01) * u * ((1 - a * u) * x) := by
    have : 0 ≤ u * x := by positivity
    have h9 : a ≤ (a + 0.01) * (1 - a * u) := by nlinarith
    nlinarith [mul_le_mul_of_nonneg_right h9 this]
  have h10 : (a + 0.01) * u * ((1 - a * u) * x) ≤ b * u * x' := by
    apply mul_le_mul (mul_le_mul_of_nonneg_right hab hu) h6 (by nlinarith) (by nlinarith)
  linarith

/-- The rounded difference of two numbers. -/
theorem close_sub {rnd : ℝ → ℝ} (hr : ∀ x, |rnd x - x| ≤ u * |x|) (x : ℝ) : Close (1 * u) (rnd x) x := by
  unfold Close
  rw [one_mul]
  exact hr x

/-- Adding two numbers known up to errors relative to sizes `s`, `t`, with rounding. -/
theorem near_add {rnd : ℝ → ℝ} (hr : ∀ x, |rnd x - x| ≤ u * |x|) {a b x' x y' y s t : ℝ} (h : |x' - x| ≤ a * u * s) (h' : |y' - y| ≤ a * u * t) (hx : |x| ≤ s) (hy : |y| ≤ t)
    (ha : 0 ≤ a) (ha' : a ≤ 100) (hab : a + 1.01 ≤ b) : |rnd (x' + y') - (x + y)| ≤ b * u * (s + t) := by
  have h1 := hr (x' + y')
  have h2 : |x' + y'| ≤ |x' - x| + |y' - y| + (|x| + |y|) := by
    have e : x' + y' = (x' - x) + (y' - y) + (x + y) := by ring
    have := abs_add_le ((x' - x) + (y' - y)) (x + y)
    rw [← e] at this
    linarith [abs_add_le (x' - x) (y' - y), abs_add_le x y]
  have h3 : |rnd (x' + y') - (x + y)| ≤ |rnd (x' + y') - (x' + y')| + |x' - x| + |y' - y| := by
    have e : rnd (x' + y') - (x + y) = (rnd (x' + y') - (x' + y')) + (x' - x) + (y' - y) := by ring
    rw [e]
    linarith [abs_add_le ((rnd (x' + y') - (x' + y')) + (x' - x)) (y' - y), abs_add_le (rnd (x' + y') - (x' + y')) (x' - x)]
  have hst : 0 ≤ s + t := by linarith [abs_nonneg x, abs_nonneg y]
  have h4 : |x' + y'| ≤ (1 + a * u) * (s + t) := by nlinarith
  have h5 : a * u ≤ 1 / 100 := by nlinarith
  have h6 : u * |x' + y'| ≤ u * ((1 + 1 / 100) * (s + t)) := mul_le_mul_of_nonneg_left (h4.trans (mul_le_mul_of_nonneg_right (by linarith) hst)) hu
  have h7 : (a + 1.01) * (u * (s + t)) ≤ b * (u * (s + t)) := mul_le_mul_of_nonneg_right hab (by positivity)
  nlinarith

end

section
variable {A : Arith} {u : ℝ} (hA : A.Accurate u)
include hA

theorem fl_square (x : ℝ) : Close (3.1 * u) (A.rnd (A.rnd x * A.rnd x)) (x * x) :=
  have h := close_sub hA.pos hA.small hA.rnd x
  (h.mul hA.pos hA.small h (by norm_num) (by norm_num) (by norm_num) (by norm_num) (c := 2.01) (by norm_num)).round hA.pos hA.small hA.rnd (by norm_num) (by norm_num) (by norm_num)

theorem fl_hypot2 (x y : ℝ) : Close (4.2 * u) (A.rnd (A.rnd (A.rnd x * A.rnd x) + A.rnd (A.rnd y * A.rnd y))) (x * x + y * y) :=
  ((fl_square hA x).add hA.pos hA.small (fl_square hA y) (mul_self_nonneg _) (mul_self_nonneg _)).round hA.pos hA.small hA.rnd (by norm_num) (by norm_num) (by norm_num)

theorem fl_hypot (x y : ℝ) : Close (5.3 * u) (A.rnd √(A.rnd (A.rnd (A.rnd x * A.rnd x) + A.rnd (A.rnd y * A.rnd y)))) √(x * x + y * y) :=
  ((fl_hypot2 hA x y).sqrt hA.pos hA.small (by norm_num) (add_nonneg (mul_self_nonneg _) (mul_self_nonneg _))).round hA.pos hA.small hA.rnd (by norm_num) (by norm_num) (by norm_num)

/-- Subtracting a parameter. -/
theorem fl_minus {a b x' x s d : ℝ} (h : |x' - x| ≤ a * u * s) (hx : |x| ≤ s) (ha : 0 ≤ a) (ha' : a ≤ 100) (hab : a + 1.01 ≤ b) : |A.rnd (x' - d) - (x - d)| ≤ b * u * (s + |d|) := by
  have := near_add hA.pos hA.small hA.rnd (y' := -d) (y := -d) (t := |d|) h (by rw [sub_self, abs_zero]; exact mul_nonneg (mul_nonneg ha hA.pos) (abs_nonneg _)) hx (by rw [abs_neg]) ha ha' hab
  rwa [← sub_eq_add_neg, ← sub_eq_add_neg] at this

theorem fl_ppd (a b c e d : Fl A) : |(ppdResGrad a b c e d).1.val - (√((a.val - c.val) * (a.val - c.val) + (b.val - e.val) * (b.val - e.val)) - d.val)| ≤
    6.4 * u * (√((a.val - c.val) * (a.val - c.val) + (b.val - e.val) * (b.val - e.val)) + |d.val|) := by
  have h := fl_hypot hA (a.val - c.val) (b.val - e.val)
  rw [Close, abs_of_nonneg (Real.sqrt_nonneg _)] at h
  exact fl_minus hA h (abs_of_nonneg (Real.sqrt_nonneg _)).le (by norm_num) (by norm_num) (by norm_num)

theorem fl_coincidence (x0 y0 x1 y1 : Fl A) : |(FloatOps.sqrt (sumSquares [(vveResGrad x0 x1).1, (vveResGrad y0 y1).1])).val - √((x1.val - x0.val) * (x1.val - x0.val) + (y1.val - y0.val) * (y1.val - y0.val))| ≤
    7 * u * √((x1.val - x0.val) * (x1.val - x0.val) + (y1.val - y0.val) * (y1.val - y0.val)) := by
  have h1 : Close (4.2 * u) (A.rnd (0 + A.rnd (A.rnd (x1.val - x0.val) * A.rnd (x1.val - x0.val)))) ((x1.val - x0.val) * (x1.val - x0.val)) := by
    rw [zero_add]
    exact (fl_square hA _).round hA.pos hA.small hA.rnd (by norm_num) (by norm_num) (by norm_num)
  have h2 := (h1.add hA.pos hA.small ((fl_square hA (y1.val - y0.val)).mono hA.pos hA.small (by norm_num)) (mul_self_nonneg _) (mul_self_nonneg _)).round (b := 5.3) hA.pos hA.small hA.rnd (by norm_num) (by norm_num) (by norm_num)
  have h3 := (h2.sqrt hA.pos hA.small (by norm_num) (add_nonneg (mul_self_nonneg _) (mul_self_nonneg _))).round (b := 7) hA.pos hA.small hA.rnd (by norm_num) (by norm_num) (by norm_num)
  rw [Close, abs_of_nonneg (Real.sqrt_nonneg _)] at h3
  exact h3

theorem fl_ssle (a b c d e f g h : Fl A) : |(ssleResGrad a b c d e f g h).1.val - (√((e.val - g.val) * (e.val - g.val) + (f.val - h.val) * (f.val - h.val)) -
      √((a.val - c.val) * (a.val - c.val) + (b.val - d.val) * (b.val - d.val)))| ≤
    8 * u * (√((e.val - g.val) * (e.val - g.val) + (f.val - h.val) * (f.val - h.val)) + √((a.val - c.val) * (a.val - c.val) + (b.val - d.val) * (b.val - d.val))) := by
  have h1 := fl_ppd hA a b c d 0
  have h2 := fl_ppd hA e f g h 0
  have h0 : (0 : Fl A).val = 0 := rfl
  rw [h0, sub_zero, abs_zero, add_zero] at h1 h2
  have h3 : |-(ppdResGrad a b c d (0 : Fl A)).1.val - -√((a.val - c.val) * (a.val - c.val) + (b.val - d.val) * (b.val - d.val))| ≤
      6.4 * u * √((a.val - c.val) * (a.val - c.val) + (b.val - d.val) * (b.val - d.val)) := by rwa [← neg_add', abs_neg, ← sub_eq_add_neg]
  have := near_add hA.pos hA.small hA.rnd (b := 8) h2 h3 (abs_of_nonneg (Real.sqrt_nonneg _)).le (by rw [abs_neg]; exact (abs_of_nonneg (Real.sqrt_nonneg _)).le) (by norm_num) (by norm_num) (by norm_num)
  rwa [← sub_eq_add_neg, ← sub_eq_add_neg] at this

/-- The product of two differences. -/
theorem fl_product (x y : ℝ) : |A.rnd (A.rnd x * A.rnd y) - x * y| ≤ 3.1 * u * |x * y| :=
  ((close_sub hA.pos hA.small hA.rnd x).mul hA.pos hA.small (close_sub hA.pos hA.small hA.rnd y) (by norm_num) (by norm_num) (by norm_num) (by norm_num) (c := 2.01) (by norm_num)).round hA.pos hA.small hA.rnd
    (by norm_num) (by norm_num) (by norm_num)

/-- A sum of two products of differences. -/
theorem fl_dot (a b c d : ℝ) : |A.rnd (A.rnd (A.rnd a * A.rnd b) + A.rnd (A.rnd c * A.rnd d)) - (a * b + c * d)| ≤ 4.2 * u * (|a * b| + |c * d|) :=
  near_add hA.pos hA.small hA.rnd (fl_product hA a b) (fl_product hA c d) le_rfl le_rfl (by norm_num) (by norm_num) (by norm_num)

/-- A difference of two products of differences. -/
theorem fl_cross (a b c d : ℝ) : |A.rnd (A.rnd (A.rnd a * A.rnd b) - A.rnd (A.rnd c * A.rnd d)) - (a * b - c * d)| ≤ 4.2 * u * (|a * b| + |c * d|) := by
  have h2 : |-A.rnd (A.rnd c * A.rnd d) - -(c * d)| ≤ 3.1 * u * |c * d| := by
    rw [← neg_add', abs_neg, ← sub_eq_add_neg]
    exact fl_product hA c d
  have := near_add hA.pos hA.small hA.rnd (b := 4.2) (fl_product hA a b) h2 le_rfl (by rw [abs_neg]) (by norm_num) (by norm_num) (by norm_num)
  rwa [← sub_eq_add_neg, ← sub_eq_add_neg] at this

theorem fl_pli (x y x1 y1 x2 y2 : Fl A) : |(pliResGrad x y x1 y1 x2 y2).1.val - ((x2.val - x1.val) * (y.val - y1.val) - (y2.val - y1.val) * (x.val - x1.val))| ≤
    4.2 * u * (|(x2.val - x1.val) * (y.val - y1.val)| + |(y2.val - y1.val) * (x.val - x1.val)|) := fl_cross hA _ _ _ _

theorem fl_llpar (a1x a1y a2x a2y b1x b1y b2x b2y : Fl A) : |(llparResGrad a1x a1y a2x a2y b1x b1y b2x b2y).1.val -
      ((b2x.val - b1x.val) * (a2y.val - a1y.val) - (b2y.val - b1y.val) * (a2x.val - a1x.val))| ≤
    4.2 * u * (|(b2x.val - b1x.val) * (a2y.val - a1y.val)| + |(b2y.val - b1y.val) * (a2x.val - a1x.val)|) := fl_cross hA _ _ _ _

theorem fl_llperp (a1x a1y a2x a2y b1x b1y b2x b2y : Fl A) : |(llperpResGrad a1x a1y a2x a2y b1x b1y b2x b2y).1.val -
      ((b2x.val - b1x.val) * (a2x.val - a1x.val) + (b2y.val - b1y.val) * (a2y.val - a1y.val))| ≤
    4.2 * u * (|(b2x.val - b1x.val) * (a2x.val - a1x.val)| + |(b2y.val - b1y.val) * (a2y.val - a1y.val)|) := fl_dot hA _ _ _ _

/-- Dividing by a length: a number `c` known up to an error relative to `s`, times the rounded reciprocal of `l`. -/
theorem fl_over {c' c s l' l : ℝ} (hc : |c' - c| ≤ 4.2 * u * s) (hcs : |c| ≤ s) (hl : Close (5.3 * u) l' l) (h0 : 0 < l) :
    |A.rnd (A.rnd (1 / l') * c') - 1 / l * c| ≤ 12.2 * u * (s / l) := by
  have h1 := ((hl.recip hA.pos hA.small (b := 5.4) (by norm_num) (by norm_num) (by norm_num) h0).round hA.pos hA.small hA.rnd (b := 6.5) (by norm_num) (by norm_num) (by norm_num))
  generalize A.rnd (1 / l') = m at *
  have hm : 0 < 1 / l := by positivity
  rw [Close, abs_of_pos hm] at h1
  have hu := hA.pos
  have hs0 : 0 ≤ s := (abs_nonneg c).trans hcs
  have e : m * c' - 1 / l * c = (m - 1 / l) * c + 1 / l * (c' - c) + (m - 1 / l) * (c' - c) := by ring
  have h2 : |m * c' - 1 / l * c| ≤ 10.8 * u * (s / l) := by
    rw [e]
    have h3 := abs_add_le ((m - 1 / l) * c + 1 / l * (c' - c)) ((m - 1 / l) * (c' - c))
    have h4 := abs_add_le ((m - 1 / l) * c) (1 / l * (c' - c))
    rw [abs_mul, abs_mul, abs_of_pos hm] at h4
    rw [abs_mul (m - 1 / l) (c' - c)] at h3
    have h5 : |m - 1 / l| * |c| ≤ 6.5 * u * (1 / l) * s := mul_le_mul h1 hcs (abs_nonneg _) (by positivity)
    have h6 : 1 / l * |c' - c| ≤ 1 / l * (4.2 * u * s) := mul_le_mul_of_nonneg_left hc hm.le
    have h7 : |m - 1 / l| * |c' - c| ≤ 6.5 * u * (1 / l) * (4.2 * u * s) := mul_le_mul h1 hc (abs_nonneg _) (by positivity)
    have h8 : 6.5 * u * (1 / l) * (4.2 * u * s) ≤ 0.1 * (u * (s / l)) := by
      have : 6.5 * u * (1 / l) * (4.2 * u * s) = 27.3 * u * (u * (s / l)) := by field_simp; ring
      rw [this]
      exact mul_le_mul_of_nonneg_right (by linarith [hA.small]) (by positivity)
    have h9 : 6.5 * u * (1 / l) * s = 6.5 * (u * (s / l)) := by field_simp
    have h10 : 1 / l * (4.2 * u * s) = 4.2 * (u * (s / l)) := by field_simp
    linarith
  have h3 := hA.rnd (m * c')
  have h4 : |m * c'| ≤ (1 + 10.8 * u) * (s / l) := by
    have h5 : |1 / l * c| ≤ s / l := by
      rw [abs_mul, abs_of_pos hm, one_div, inv_mul_eq_div]
      exact div_le_div_of_nonneg_right hcs h0.le
    have e : m * c' = (m * c' - 1 / l * c) + 1 / l * c := by ring
    rw [e]
    linarith [abs_add_le (m * c' - 1 / l * c) (1 / l * c)]
  have h5 : |A.rnd (m * c') - 1 / l * c| ≤ |A.rnd (m * c') - m * c'| + |m * c' - 1 / l * c| := abs_sub_le _ _ _
  have h6 : 0 ≤ s / l := by positivity
  have h7 : u * |m * c'| ≤ u * ((1 + 1 / 100) * (s / l)) := mul_le_mul_of_nonneg_left (h4.trans (mul_le_mul_of_nonneg_right (by linarith [hA.small]) h6)) hu
  nlinarith [mul_nonneg hu h6]

theorem fl_pld (x y x1 y1 x2 y2 d : Fl A) {l : ℝ} (hl : √((x2.val - x1.val) * (x2.val - x1.val) + (y2.val - y1.val) * (y2.val - y1.val)) = l) (h0 : 0 < l) :
    |(pldResGrad x y x1 y1 x2 y2 d).1.val - (1 / l * ((x2.val - x1.val) * (y.val - y1.val) - (y2.val - y1.val) * (x.val - x1.val)) - d.val)| ≤
    13.3 * u * ((|(x2.val - x1.val) * (y.val - y1.val)| + |(y2.val - y1.val) * (x.val - x1.val)|) / l + |d.val|) := by
  have h1 := fl_cross hA (x2.val - x1.val) (y.val - y1.val) (y2.val - y1.val) (x.val - x1.val)
  have h2 := fl_hypot hA (x2.val - x1.val) (y2.val - y1.val)
  rw [hl] at h2
  have hc := abs_sub ((x2.val - x1.val) * (y.val - y1.val)) ((y2.val - y1.val) * (x.val - x1.val))
  have h3 := fl_over hA h1 hc h2 h0
  refine fl_minus hA h3 ?_ (by norm_num) (by norm_num) (by norm_num)
  rw [abs_mul, abs_of_pos (by positivity : 0 < 1 / l), one_div, inv_mul_eq_div]
  exact div_le_div_of_nonneg_right hc h0.le

/-- A coordinate times a difference. -/
theorem fl_scaled (x y : ℝ) : |A.rnd (x * A.rnd y) - x * y| ≤ 2.01 * u * |x * y| := by
  have h0 : Close (1 * u) (x * A.rnd y) (x * y) := by
    unfold Close
    rw [← mul_sub, abs_mul, abs_mul]
    have := mul_le_mul_of_nonneg_left (hA.rnd y) (abs_nonneg x)
    linarith
  exact h0.round hA.pos hA.small hA.rnd (by norm_num) (by norm_num) (by norm_num)

theorem fl_area (x1 y1 x2 y2 cx cy : ℝ) :
    |A.rnd (A.rnd (A.rnd (x1 * A.rnd (y2 - cy)) + A.rnd (x2 * A.rnd (cy - y1))) + A.rnd (cx * A.rnd (y1 - y2))) - (x1 * (y2 - cy) + x2 * (cy - y1) + cx * (y1 - y2))| ≤
      4.2 * u * (|x1 * (y2 - cy)| + |x2 * (cy - y1)| + |cx * (y1 - y2)|) := by
  have h1 := near_add hA.pos hA.small hA.rnd (b := 3.1) (fl_scaled hA x1 (y2 - cy)) (fl_scaled hA x2 (cy - y1)) le_rfl le_rfl (by norm_num) (by norm_num) (by norm_num)
  have h2 : |A.rnd (cx * A.rnd (y1 - y2)) - cx * (y1 - y2)| ≤ 3.1 * u * |cx * (y1 - y2)| :=
    (fl_scaled hA cx (y1 - y2)).trans (mul_le_mul_of_nonneg_right (mul_le_mul_of_nonneg_right (by norm_num) hA.pos) (abs_nonneg _))
  exact near_add hA.pos hA.small hA.rnd h1 h2 (abs_add_le _ _) le_rfl (by norm_num) (by norm_num) (by norm_num)

theorem fl_lct (x1 y1 x2 y2 cx cy r : Fl A) {l : ℝ} (hl : √((x1.val - x2.val) * (x1.val - x2.val) + (y1.val - y2.val) * (y1.val - y2.val)) = l) (h0 : 0 < l) :
    |(lctResGrad x1 y1 x2 y2 cx cy r).1.val - (1 / l * |x1.val * (y2.val - cy.val) + x2.val * (cy.val - y1.val) + cx.val * (y1.val - y2.val)| - r.val)| ≤
    13.3 * u * ((|x1.val * (y2.val - cy.val)| + |x2.val * (cy.val - y1.val)| + |cx.val * (y1.val - y2.val)|) / l + |r.val|) := by
  have h1 := fl_area hA x1.val y1.val x2.val y2.val cx.val cy.val
  have h2 := fl_hypot hA (x1.val - x2.val) (y1.val - y2.val)
  rw [hl] at h2
  have hc : |x1.val * (y2.val - cy.val) + x2.val * (cy.val - y1.val) + cx.val * (y1.val - y2.val)| ≤ |x1.val * (y2.val - cy.val)| + |x2.val * (cy.val - y1.val)| + |cx.val * (y1.val - y2.val)| := by
    linarith [abs_add_le (x1.val * (y2.val - cy.val) + x2.val * (cy.val - y1.val)) (cx.val * (y1.val - y2.val)), abs_add_le (x1.val * (y2.val - cy.val)) (x2.val * (cy.val - y1.val))]
  have h3 := fl_over hA ((abs_abs_sub_abs_le _ _).trans h1) ((abs_abs _).trans_le hc) h2 h0
  have hpos : 0 < A.rnd √(A.rnd (A.rnd (A.rnd (x1.val - x2.val) * A.rnd (x1.val - x2.val)) + A.rnd (A.rnd (y1.val - y2.val) * A.rnd (y1.val - y2.val)))) :=
    lt_of_lt_of_le (by positivity) (h2.nonneg hA.pos hA.small (by norm_num) h0.le)
  have h4 := fl_minus hA (d := r.val) (b := 13.3) h3 (by
    rw [abs_mul, abs_abs, abs_of_pos (by positivity : 0 < 1 / l), one_div, inv_mul_eq_div]
    exact div_le_div_of_nonneg_right hc h0.le) (by norm_num) (by norm_num) (by norm_num)
  have h5 : FloatOps.eqB (FloatOps.sqrt ((x1 - x2) * (x1 - x2) + (y1 - y2) * (y1 - y2))) (0 : Fl A) = false := decide_eq_false hpos.ne'
  unfold lctResGrad
  dsimp only
  rw [h5]
  exact h4

/-! ## Angles -/

omit hA in
theorem direction {v : ℂ} (hv : v ≠ 0) : v / ‖v‖ = Complex.exp (Complex.arg v * Complex.I) := by
  have h := Complex.norm_mul_exp_arg_mul_I v
  have h0 : (‖v‖ : ℂ) ≠ 0 := by simpa using hv
  rw [div_eq_iff h0, mul_comm]
  exact h.symm

omit hA in
theorem abs_arg_le {z : ℂ} (hz : 0 < z.re) : |Complex.arg z| ≤ |z.im| / z.re := by
  have h1 : |Complex.arg z| < Real.pi / 2 := Complex.abs_arg_lt_pi_div_two_iff.2 (.inl hz)
  have h2 := Complex.tan_arg z
  have h3 : |Real.tan (Complex.arg z)| = |z.im| / z.re := by rw [h2, abs_div, abs_of_pos hz]
  rw [← h3]
  rcases le_total 0 (Complex.arg z) with h | h
  · rw [abs_of_nonneg h] at h1 ⊢
    exact (Real.le_tan h h1).trans (le_abs_self _)
  · rw [abs_of_nonpos h] at h1 ⊢
    have := Real.le_tan (neg_nonneg.2 h) h1
    rw [Real.tan_neg] at this
    exact this.trans (neg_le_abs _)

/-- Rounding the coordinates of a vector turns it by little. -/
theorem fl_turn {x y : ℝ} (hv : (⟨x, y⟩ : ℂ) ≠ 0) : (⟨A.rnd x, A.rnd y⟩ : ℂ) ≠ 0 ∧ ∃ φ : ℝ, |φ| ≤ 1.01 * u ∧
    Complex.exp (Complex.arg ⟨A.rnd x, A.rnd y⟩ * Complex.I) = Complex.exp (Complex.arg ⟨x, y⟩ * Complex.I) * Complex.exp (φ * Complex.I) := by
  have hx := hA.rnd x
  have hy := hA.rnd y
  have hu := hA.pos
  have hs := hA.small
  generalize A.rnd x = x' at *
  generalize A.rnd y = y' at *
  have hn : 0 < x * x + y * y := by
    by_contra hc
    have h1 : x = 0 := by nlinarith [mul_self_nonneg x, mul_self_nonneg y]
    have h2 : y = 0 := by nlinarith [mul_self_nonneg x, mul_self_nonneg y]
    exact hv (Complex.ext h1 h2)
  have hxx : |x| * |x| = x * x := abs_mul_abs_self x
  have hyy : |y| * |y| = y * y := abs_mul_abs_self y
  have hre : (⟨x', y'⟩ / ⟨x, y⟩ : ℂ).re = (x' * x + y' * y) / (x * x + y * y) := by
    rw [Complex.div_re]; simp [Complex.normSq_mk]; ring
  have him : (⟨x', y'⟩ / ⟨x, y⟩ : ℂ).im = (y' * x - x' * y) / (x * x + y * y) := by
    rw [Complex.div_im]; simp [Complex.normSq_mk]; ring
  have h1 : 1 - u ≤ (x' * x + y' * y) / (x * x + y * y) := by
    rw [le_div_iff₀ hn]
    have e : x' * x + y' * y = (x' - x) * x + (y' - y) * y + (x * x + y * y) := by ring
    have h2 : -(|x' - x| * |x|) ≤ (x' - x) * x := by rw [← abs_mul]; exact neg_abs_le _
    have h3 : -(|y' - y| * |y|) ≤ (y' - y) * y := by rw [← abs_mul]; exact neg_abs_le _
    nlinarith [mul_le_mul_of_nonneg_right hx (abs_nonneg x), mul_le_mul_of_nonneg_right hy (abs_nonneg y)]
  have h2 : |(y' * x - x' * y) / (x * x + y * y)| ≤ u := by
    rw [abs_div, abs_of_pos hn, div_le_iff₀ hn]
    have e : y' * x - x' * y = (y' - y) * x - (x' - x) * y := by ring
    rw [e]
    have h3 := abs_sub ((y' - y) * x) ((x' - x) * y)
    rw [abs_mul, abs_mul] at h3
    nlinarith [mul_le_mul_of_nonneg_right hx (abs_nonneg y), mul_le_mul_of_nonneg_right hy (abs_nonneg x), sq_nonneg (|x| - |y|)]
  have hz : 0 < (⟨x', y'⟩ / ⟨x, y⟩ : ℂ).re := by rw [hre]; linarith
  have hv' : (⟨x', y'⟩ : ℂ) ≠ 0 := by
    intro hc
    rw [hc, zero_div] at hz
    exact lt_irrefl _ hz
  refine ⟨hv', Complex.arg (⟨x', y'⟩ / ⟨x, y⟩), ?_, ?_⟩
  · refine (abs_arg_le hz).trans ?_
    rw [hre, him, div_le_iff₀ (by linarith)]
    nlinarith
  · have hz0 : (⟨x', y'⟩ / ⟨x, y⟩ : ℂ) ≠ 0 := div_ne_zero hv' hv
    rw [← direction hv', ← direction hv, ← direction hz0, norm_div]
    have hn1 : (‖(⟨x, y⟩ : ℂ)‖ : ℂ) ≠ 0 := by simpa using hv
    have hn2 : (‖(⟨x', y'⟩ : ℂ)‖ : ℂ) ≠ 0 := by simpa using hv'
    push_cast
    generalize (⟨x', y'⟩ : ℂ) = a at *
    generalize (⟨x, y⟩ : ℂ) = b at *
    field_simp

/-- The angle the code computes, up to full turns. -/
theorem fl_angle {ux uy vx vy : ℝ} (hu : (⟨ux, uy⟩ : ℂ) ≠ 0) (hv : (⟨vx, vy⟩ : ℂ) ≠ 0) (a b : Fl A) (ha : a.val = A.atan2 (A.rnd vy) (A.rnd vx)) (hb : b.val = A.atan2 (A.rnd uy) (A.rnd ux)) (θ : Fl A) :
    ∃ x, Geo.TurnedBy (θ.val + x) ⟨ux, uy⟩ ⟨vx, vy⟩ ∧ |(wrapAngle (a - b) - θ).val - x| ≤ 16 * u * (4 * Real.pi + |θ.val|) := by
  obtain ⟨hu', φ, hφ, h1⟩ := fl_turn hA hu
  obtain ⟨hv', ψ, hψ, h2⟩ := fl_turn hA hv
  have hpi := Real.two_le_pi
  have h3 := hA.atan2 (A.rnd vx) (A.rnd vy)
  have h4 := hA.atan2 (A.rnd ux) (A.rnd uy)
  rw [← ha] at h3
  rw [← hb] at h4
  have h5 := Complex.abs_arg_le_pi ⟨A.rnd vx, A.rnd vy⟩
  have h6 := Complex.abs_arg_le_pi ⟨A.rnd ux, A.rnd uy⟩
  have hu0 := hA.pos
  have hs := hA.small
  generalize hα : Complex.arg ⟨A.rnd vx, A.rnd vy⟩ = α at *
  generalize hβ : Complex.arg ⟨A.rnd ux, A.rnd uy⟩ = β at *
  have h7 : |a.val - α| ≤ 2 * u * Real.pi := h3.trans (mul_le_mul_of_nonneg_left h5 (by linarith))
  have h8 : |-b.val - -β| ≤ 2 * u * Real.pi := by
    rw [← neg_add', abs_neg, ← sub_eq_add_neg]
    exact h4.trans (mul_le_mul_of_nonneg_left h6 (by linarith))
  have h9 : |(a - b).val - (α - β)| ≤ 3.1 * u * (2 * Real.pi) := by
    have := near_add hA.pos hA.small hA.rnd (b := 3.1) h7 h8 h5 (by rwa [abs_neg]) (by norm_num) (by norm_num) (by norm_num)
    rw [← sub_eq_add_neg, ← sub_eq_add_neg, ← two_mul] at this
    exact this
  have h10 : |α - β| ≤ 2 * Real.pi := by linarith [abs_sub α β]
  have h11 : |((1 + 1) * FloatOps.pi : Fl A).val - 2 * Real.pi| ≤ 3.1 * u * (2 * Real.pi) := by
    have h12 : Close (1 * u) (A.rnd (1 + 1)) 2 := by
      have := close_sub hA.pos hA.small hA.rnd (1 + 1)
      norm_num at this ⊢
      exact this
    have := ((h12.mul hA.pos hA.small (close_sub hA.pos hA.small hA.rnd Real.pi) (by norm_num) (by norm_num) (by norm_num) (by norm_num) (c := 2.01) (by norm_num)).round hA.pos hA.small hA.rnd
      (b := 3.1) (by norm_num) (by norm_num) (by norm_num))
    rw [Close, abs_of_pos (by positivity : 0 < 2 * Real.pi)] at this
    exact this
  obtain ⟨k, hk⟩ : ∃ k : ℤ, |(wrapAngle (a - b)).val - (α - β + k * (2 * Real.pi))| ≤ 4.2 * u * (4 * Real.pi) ∧ |α - β + k * (2 * Real.pi)| ≤ 4 * Real.pi := by
    unfold wrapAngle
    split_ifs
    · refine ⟨-1, ?_, ?_⟩
      · have h12 : |-((1 + 1) * FloatOps.pi : Fl A).val - -(2 * Real.pi)| ≤ 3.1 * u * (2 * Real.pi) := by rwa [← neg_add', abs_neg, ← sub_eq_add_neg]
        have := near_add hA.pos hA.small hA.rnd (b := 4.2) h9 h12 h10 (by rw [abs_neg, abs_of_pos (by positivity)]) (by norm_num) (by norm_num) (by norm_num)
        rw [← sub_eq_add_neg] at this
        refine (le_of_eq ?_).trans (this.trans (le_of_eq (by ring)))
        congr 1
        push_cast
        rw [neg_one_mul]
        rfl
      · push_cast
        have := abs_le.1 h10
        rw [abs_le]
        constructor <;> linarith [this.1, this.2]
    · refine ⟨1, ?_, ?_⟩
      · have := near_add hA.pos hA.small hA.rnd (b := 4.2) h9 h11 h10 (by rw [abs_of_pos (by positivity)]) (by norm_num) (by norm_num) (by norm_num)
        refine (le_of_eq ?_).trans (this.trans (le_of_eq (by ring)))
        congr 1
        push_cast
        rw [one_mul]
        rfl
      · push_cast
        have := abs_le.1 h10
        rw [abs_le]
        constructor <;> linarith [this.1, this.2]
    · refine ⟨0, ?_, ?_⟩
      · push_cast
        rw [zero_mul, add_zero]
        refine h9.trans ?_
        nlinarith [mul_nonneg hu0 (by linarith : 0 ≤ Real.pi)]
      · push_cast
        rw [zero_mul, add_zero]
        linarith
  obtain ⟨hk, hk'⟩ := hk
  have h12 := fl_minus hA (d := θ.val) (b := 5.3) hk hk' (by norm_num) (by norm_num) (by norm_num)
  refine ⟨α - β + k * (2 * Real.pi) - θ.val + (φ - ψ), ?_, ?_⟩
  · unfold Geo.TurnedBy
    rw [direction hu, direction hv]
    have e1 : Complex.exp (Complex.arg ⟨vx, vy⟩ * Complex.I) = Complex.exp (α * Complex.I) * Complex.exp (-(ψ * Complex.I)) := by
      rw [h2, mul_assoc, ← Complex.exp_add, add_neg_cancel, Complex.exp_zero, mul_one]
    have e2 : Complex.exp (Complex.arg ⟨ux, uy⟩ * Complex.I) = Complex.exp (β * Complex.I) * Complex.exp (-(φ * Complex.I)) := by
      rw [h1, mul_assoc, ← Complex.exp_add, add_neg_cancel, Complex.exp_zero, mul_one]
    rw [e1, e2, ← Complex.exp_add, ← Complex.exp_add, ← Complex.exp_add, Complex.exp_eq_exp_iff_exists_int]
    refine ⟨-k, ?_⟩
    push_cast
    ring
  · have e : (wrapAngle (a - b) - θ).val - (α - β + k * (2 * Real.pi) - θ.val + (φ - ψ)) = (A.rnd ((wrapAngle (a - b)).val - θ.val) - (α - β + k * (2 * Real.pi) - θ.val)) - (φ - ψ) := by
      show A.rnd _ - _ = _
      ring
    rw [e]
    have h13 := abs_sub (A.rnd ((wrapAngle (a - b)).val - θ.val) - (α - β + k * (2 * Real.pi) - θ.val)) (φ - ψ)
    have h14 := abs_sub φ ψ
    nlinarith [mul_nonneg hu0 (abs_nonneg θ.val), mul_nonneg hu0 (by linarith : 0 ≤ Real.pi - 2)]

end

end Fiksi
