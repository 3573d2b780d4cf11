import Verif.Proofs.Rounding
import Verif.Model.Scale
import Verif.Model.Lm
/-!
# Sums of squares and scaled residuals in rounded arithmetic
-/
namespace Fiksi

open Spec

/-! ## Sums of squares -/

section
variable {A : Arith} {u : ℝ} (hA : A.Accurate u)
include hA

theorem rnd_bounds {x : ℝ} (hx : 0 ≤ x) : (1 - u) * x ≤ A.rnd x ∧ A.rnd x ≤ (1 + u) * x := by
  have := abs_le.1 (hA.rnd x)
  rw [abs_of_nonneg hx] at this
  constructor <;> linarith [this.1, this.2]

theorem foldl_rounded_squares : ∀ (l : List (Fl A)) (acc : Fl A), 0 ≤ acc.val →
    (1 - u) ^ l.length * acc.val + (1 - u) ^ (l.length + 1) * (l.map (fun v => v.val * v.val)).sum ≤ (l.foldl (fun acc v => acc + v * v) acc).val ∧
      (l.foldl (fun acc v => acc + v * v) acc).val ≤ (1 + u) ^ l.length * acc.val + (1 + u) ^ (l.length + 1) * (l.map (fun v => v.val * v.val)).sum := by
  have hu := hA.pos
  have hu' : u ≤ 1 := hA.small.trans (by norm_num)
  intro l
  induction l with
  | nil => intro acc h; simp
  | cons v l ih =>
    intro acc h
    have h1 := rnd_bounds hA (mul_self_nonneg v.val)
    have h0 : 0 ≤ A.rnd (v.val * v.val) := (mul_nonneg (by linarith) (mul_self_nonneg _)).trans h1.1
    have h2 := rnd_bounds hA (add_nonneg h h0)
    have h3 : 0 ≤ (acc + v * v).val := (mul_nonneg (by linarith) (add_nonneg h h0)).trans h2.1
    obtain ⟨h4, h5⟩ := ih (acc + v * v) h3
    have hacc : (acc + v * v).val = A.rnd (acc.val + A.rnd (v.val * v.val)) := rfl
    have hs : 0 ≤ (l.map (fun v => v.val * v.val)).sum := List.sum_nonneg (by simp [mul_self_nonneg])
    have hv := mul_self_nonneg v.val
    have p1 : 0 ≤ (1 - u) ^ l.length := pow_nonneg (by linarith) _
    have p2 : 0 ≤ (1 + u) ^ l.length := pow_nonneg (by linarith) _
    simp only [List.foldl_cons, List.length_cons, List.map_cons, List.sum_cons]
    rw [← hacc] at h2
    constructor
    · refine le_trans ?_ h4
      have h6 : (1 - u) * acc.val + (1 - u) ^ 2 * (v.val * v.val) ≤ (acc + v * v).val := by nlinarith [h2.1, h1.1]
      have h7 := mul_le_mul_of_nonneg_left h6 p1
      have h8 : (1 - u) ^ (l.length + 1 + 1) * (l.map (fun v => v.val * v.val)).sum ≤ (1 - u) ^ (l.length + 1) * (l.map (fun v => v.val * v.val)).sum := by
        refine mul_le_mul_of_nonneg_right ?_ hs
        rw [pow_succ]
        nlinarith [pow_nonneg (show 0 ≤ 1 - u by linarith) (l.length + 1)]
      have e : (1 - u) ^ (l.length + 1) * acc.val + (1 - u) ^ (l.length + 1 + 1) * (v.val * v.val + (l.map (fun v => v.val * v.val)).sum) =
        (1 - u) ^ l.length * ((1 - u) * acc.val + (1 - u) ^ 2 * (v.val * v.val)) + (1 - u) ^ (l.length + 1 + 1) * (l.map (fun v => v.val * v.val)).sum := by ring
      rw [e]
      exact add_le_add h7 h8
    · refine le_trans h5 ?_
      have h6 : (acc + v * v).val ≤ (1 + u) * acc.val + (1 + u) ^ 2 * (v.val * v.val) := by nlinarith [h2.2, h1.2]
      have h7 := mul_le_mul_of_nonneg_left h6 p2
      have h8 : (1 + u) ^ (l.length + 1) * (l.map (fun v => v.val * v.val)).sum ≤ (1 + u) ^ (l.length + 1 + 1) * (l.map (fun v => v.val * v.val)).sum := by
        refine mul_le_mul_of_nonneg_right ?_ hs
        rw [pow_succ (1 + u) (l.length + 1)]
        nlinarith [pow_nonneg (show 0 ≤ 1 + u by linarith) (l.length + 1)]
      have e : (1 + u) ^ (l.length + 1) * acc.val + (1 + u) ^ (l.length + 1 + 1) * (v.val * v.val + (l.map (fun v => v.val * v.val)).sum) =
        (1 + u) ^ l.length * ((1 + u) * acc.val + (1 + u) ^ 2 * (v.val * v.val)) + (1 + u) ^ (l.length + 1 + 1) * (l.map (fun v => v.val * v.val)).sum := by ring
      rw [e]
      exact add_le_add h7 h8

end

/-- Many roundings of binary64 change little. -/
theorem pow_bounds {u : ℝ} (h0 : 0 ≤ u) (hu : u ≤ 1 / 2 ^ 53) {m : Nat} (hm : m ≤ 2 ^ 21) : 1 - 1 / 2 ^ 30 ≤ (1 - u) ^ m ∧ (1 + u) ^ m ≤ 1 + 1 / 2 ^ 30 := by
  have hu1 : u ≤ 1 := hu.trans (by norm_num)
  have hmu : (m : ℝ) * u ≤ 1 / 2 ^ 32 := by
    have : (m : ℝ) ≤ 2 ^ 21 := by exact_mod_cast hm
    calc (m : ℝ) * u ≤ 2 ^ 21 * (1 / 2 ^ 53) := mul_le_mul this hu h0 (by positivity)
      _ = 1 / 2 ^ 32 := by norm_num
  have h1 : 1 - 1 / 2 ^ 32 ≤ (1 - u) ^ m := by
    have := one_add_mul_le_pow (a := -u) (by linarith) m
    rw [← sub_eq_add_neg] at this
    linarith
  refine ⟨le_trans (by norm_num) h1, ?_⟩
  have h2 : (1 + u) ^ m * (1 - u) ^ m ≤ 1 := by
    rw [← mul_pow]
    exact pow_le_one₀ (mul_nonneg (by linarith) (by linarith)) (by nlinarith)
  have h3 : 0 ≤ (1 + u) ^ m := pow_nonneg (by linarith) _
  nlinarith

section
variable {A : Arith} {u : ℝ} (hA : A.Accurate u) (hu : u ≤ 1 / 2 ^ 53)
include hA hu

theorem sumSquares_bounds {l : List (Fl A)} (hl : l.length < 2 ^ 21) : (1 - 1 / 2 ^ 30) * (l.map (fun v => v.val * v.val)).sum ≤ (sumSquares l).val ∧
    (sumSquares l).val ≤ (1 + 1 / 2 ^ 30) * (l.map (fun v => v.val * v.val)).sum := by
  have hs : 0 ≤ (l.map (fun v => v.val * v.val)).sum := List.sum_nonneg (by simp [mul_self_nonneg])
  have h0 : (0 : Fl A).val = 0 := rfl
  obtain ⟨h1, h2⟩ := foldl_rounded_squares hA l 0 le_rfl
  obtain ⟨h3, h4⟩ := pow_bounds hA.pos hu (m := l.length + 1) (by omega)
  rw [h0, mul_zero, zero_add] at h1 h2
  exact ⟨(mul_le_mul_of_nonneg_right h3 hs).trans h1, h2.trans (mul_le_mul_of_nonneg_right h4 hs)⟩

/-- The scale that `solve` computes is the root mean square, up to rounding. -/
theorem rootMeanSquares_bounds {l : List (Fl A)} (hl : l.length < 2 ^ 21) (hl0 : l ≠ []) :
    (1 - 1 / 2 ^ 20) * √((l.map (fun v => v.val * v.val)).sum / l.length) ≤ (rootMeanSquares l).val ∧
      (rootMeanSquares l).val ≤ (1 + 1 / 2 ^ 20) * √((l.map (fun v => v.val * v.val)).sum / l.length) := by
  have hs : 0 ≤ (l.map (fun v => v.val * v.val)).sum := List.sum_nonneg (by simp [mul_self_nonneg])
  obtain ⟨h1, h2⟩ := sumSquares_bounds hA hu hl
  have hu0 := hA.pos
  have hn : (0 : ℝ) < l.length := by
    have := List.length_pos_iff.2 hl0
    exact_mod_cast this
  set S := (l.map (fun v => v.val * v.val)).sum with hS
  set q := S / l.length with hq
  have hq0 : 0 ≤ q := div_nonneg hs hn.le
  have hSq : S = q * l.length := by rw [hq, div_mul_cancel₀ _ hn.ne']
  obtain ⟨h3, h4⟩ := rnd_bounds hA hn.le
  have hn' : 0 < A.rnd l.length := lt_of_lt_of_le (mul_pos (by linarith [hA.small]) hn) h3
  have hS0 : 0 ≤ (sumSquares l).val := (mul_nonneg (by norm_num) hs).trans h1
  have hd0 : 0 ≤ (sumSquares l).val / A.rnd l.length := div_nonneg hS0 hn'.le
  have hd1 : (1 - 1 / 2 ^ 29) * q ≤ (sumSquares l).val / A.rnd l.length := by
    rw [le_div_iff₀ hn']
    refine le_trans ?_ h1
    have : (1 - 1 / 2 ^ 29) * q * A.rnd l.length ≤ (1 - 1 / 2 ^ 29) * q * ((1 + u) * l.length) := mul_le_mul_of_nonneg_left h4 (mul_nonneg (by norm_num) hq0)
    refine this.trans ?_
    rw [hSq]
    have h5 : (1 - 1 / 2 ^ 29) * (1 + u) ≤ 1 - 1 / 2 ^ 30 := by nlinarith
    nlinarith [mul_le_mul_of_nonneg_right h5 (mul_nonneg hq0 hn.le)]
  have hd2 : (sumSquares l).val / A.rnd l.length ≤ (1 + 1 / 2 ^ 29) * q := by
    rw [div_le_iff₀ hn']
    refine h2.trans ?_
    have : (1 + 1 / 2 ^ 29) * q * ((1 - u) * l.length) ≤ (1 + 1 / 2 ^ 29) * q * A.rnd l.length := mul_le_mul_of_nonneg_left h3 (mul_nonneg (by norm_num) hq0)
    refine le_trans ?_ this
    rw [hSq]
    have h5 : 1 + 1 / 2 ^ 30 ≤ (1 + 1 / 2 ^ 29) * (1 - u) := by nlinarith
    nlinarith [mul_le_mul_of_nonneg_right h5 (mul_nonneg hq0 hn.le)]
  obtain ⟨h5, h6⟩ := rnd_bounds hA hd0
  have hm : (meanSquares l).val = A.rnd ((sumSquares l).val / A.rnd l.length) := rfl
  have hm1 : (1 - 1 / 2 ^ 28) * q ≤ (meanSquares l).val := by rw [hm]; nlinarith
  have hm2 : (meanSquares l).val ≤ (1 + 1 / 2 ^ 28) * q := by rw [hm]; nlinarith
  have hm0 : 0 ≤ (meanSquares l).val := (mul_nonneg (by norm_num) hq0).trans hm1
  have hr1 : (1 - 1 / 2 ^ 28) * √q ≤ √(meanSquares l).val := by
    apply Real.le_sqrt_of_sq_le
    rw [mul_pow, Real.sq_sqrt hq0]
    refine le_trans (mul_le_mul_of_nonneg_right ?_ hq0) hm1
    norm_num
  have hr2 : √(meanSquares l).val ≤ (1 + 1 / 2 ^ 28) * √q := by
    rw [Real.sqrt_le_left (mul_nonneg (by norm_num) (Real.sqrt_nonneg _)), mul_pow, Real.sq_sqrt hq0]
    refine le_trans hm2 (mul_le_mul_of_nonneg_right ?_ hq0)
    norm_num
  obtain ⟨h7, h8⟩ := rnd_bounds hA (Real.sqrt_nonneg (meanSquares l).val)
  have hrm : (rootMeanSquares l).val = A.rnd √(meanSquares l).val := rfl
  have hq' := Real.sqrt_nonneg q
  rw [hrm]
  constructor <;> nlinarith

/-- Where the sum of the squares of the residuals is small, the sums that are computed are below the bounds of the optimisers. -/
theorem sum_stops {l : List (Fl A)} (hl : l.length < 2 ^ 19) (hsum : (l.map (fun v => v.val * v.val)).sum ≤ 65 / 10 ^ 10) :
    FloatOps.ltB (normSquared (l.map (fun r => -r))) (ratio 1 (10 ^ 8)) = true ∧ FloatOps.ltB (sumSquares l) (ratio 1 10000 : Fl A) = true := by
  have hneg : normSquared (l.map (fun r => -r)) = sumSquares l := by
    rw [normSquared, sumSquares, List.map_map, List.foldl_map]
    congr 1
    funext acc v
    exact congrArg (acc + ·) (congrArg Fl.mk (by show A.rnd (-v.val * -v.val) = A.rnd (v.val * v.val); rw [neg_mul_neg]))
  have h2 := (sumSquares_bounds hA hu (l := l) (by omega)).2
  have hu0 := hA.pos
  have hval : (sumSquares l).val ≤ 7 / 10 ^ 9 := by
    refine h2.trans ((mul_le_mul_of_nonneg_left hsum (by norm_num)).trans ?_)
    norm_num
  have hratio : ∀ n : Nat, 0 < n → n ≤ 10 ^ 8 → 8 / 10 ^ 9 ≤ (ratio 1 n : Fl A).val := by
    intro n hn hn'
    have hn0 : (0 : ℝ) < n := by exact_mod_cast hn
    have hn1 : (n : ℝ) ≤ 10 ^ 8 := by exact_mod_cast hn'
    obtain ⟨a1, -⟩ := rnd_bounds hA (x := ((1 : ℕ) : ℝ)) (by norm_num)
    obtain ⟨b1, b2⟩ := rnd_bounds hA hn0.le
    have b3 : 0 < A.rnd n := lt_of_lt_of_le (mul_pos (by linarith [hA.small]) hn0) b1
    have c1 : 9 / 10 ^ 9 ≤ A.rnd ((1 : ℕ) : ℝ) / A.rnd n := by
      rw [le_div_iff₀ b3]
      rw [Nat.cast_one, mul_one] at a1
      nlinarith
    obtain ⟨d1, -⟩ := rnd_bounds hA (x := A.rnd ((1 : ℕ) : ℝ) / A.rnd n) (le_trans (by norm_num) c1)
    show 8 / 10 ^ 9 ≤ A.rnd (A.rnd ((1 : ℕ) : ℝ) / A.rnd n)
    nlinarith
  rw [hneg]
  constructor
  · exact decide_eq_true (lt_of_le_of_lt hval (lt_of_lt_of_le (by norm_num) (hratio (10 ^ 8) (by norm_num) (by norm_num))))
  · exact decide_eq_true (lt_of_le_of_lt hval (lt_of_lt_of_le (by norm_num) (hratio 10000 (by norm_num) (by norm_num))))

/-- Where all residuals are small, the sums of squares are below the bounds of the optimisers. -/
theorem small_stops {B : ℝ} {n : Nat} (hn : n < 2 ^ 19) (hB : n * B ^ 2 ≤ 65 / 10 ^ 10) {l : List (Fl A)} (hl : l.length ≤ n) (hs : ∀ y ∈ l, |y.val| ≤ B) :
    FloatOps.ltB (normSquared (l.map (fun r => -r))) (ratio 1 (10 ^ 8)) = true ∧ FloatOps.ltB (sumSquares l) (ratio 1 10000 : Fl A) = true := by
  refine sum_stops hA hu (by omega) ?_
  have h1 : (l.map (fun v => v.val * v.val)).sum ≤ (l.map (fun v => v.val * v.val)).length • B ^ 2 := by
    apply List.sum_le_card_nsmul
    intro x hx
    obtain ⟨v, hv, rfl⟩ := List.mem_map.1 hx
    have := hs v hv
    rw [← abs_mul_abs_self, sq]
    exact mul_le_mul this this (abs_nonneg _) ((abs_nonneg _).trans this)
  rw [List.length_map, nsmul_eq_mul] at h1
  have h2 : (l.length : ℝ) ≤ n := by exact_mod_cast hl
  exact h1.trans ((mul_le_mul_of_nonneg_right h2 (by positivity)).trans hB)

end

end Fiksi
