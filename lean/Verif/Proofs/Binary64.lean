import Verif.Proofs.Rounding
import Mathlib.Data.Int.Log
import Mathlib.Algebra.Order.Round
/-!
# Rounding to binary64 has a relative error of at most `2⁻⁵³`
-/
namespace Fiksi
open Spec

/-- The unit in the last place of `x`. -/
noncomputable def ulp (x : ℝ) : ℝ := 2 ^ (Int.log 2 |x| - 52)

/-- `x` rounded to a multiple of its unit in the last place. -/
noncomputable def roundBinary (x : ℝ) : ℝ := round (x / ulp x) * ulp x

theorem ulp_pos (x : ℝ) : 0 < ulp x := by unfold ulp; positivity

theorem binade {x : ℝ} (hx : x ≠ 0) : 2 ^ 52 * ulp x ≤ |x| ∧ |x| < 2 ^ 53 * ulp x := by
  have h1 := Int.zpow_log_le_self (b := 2) (by norm_num) (abs_pos.2 hx)
  have h2 := Int.lt_zpow_succ_log_self (b := 2) (by norm_num) |x|
  push_cast at h1 h2
  have e1 : (2 : ℝ) ^ 52 * ulp x = 2 ^ Int.log 2 |x| := by
    unfold ulp
    rw [← zpow_natCast, ← zpow_add₀ (by norm_num)]
    congr 1
    push_cast
    ring
  have e2 : (2 : ℝ) ^ 53 * ulp x = 2 ^ (Int.log 2 |x| + 1) := by
    unfold ulp
    rw [← zpow_natCast, ← zpow_add₀ (by norm_num)]
    congr 1
    push_cast
    ring
  rw [e1, e2]
  exact ⟨h1, h2⟩

theorem roundBinary_error (x : ℝ) : |roundBinary x - x| ≤ ulp x / 2 := by
  have h := abs_sub_round (x / ulp x)
  have hu := ulp_pos x
  have e : roundBinary x - x = -((x / ulp x - round (x / ulp x)) * ulp x) := by
    unfold roundBinary
    field_simp
    ring
  rw [e, abs_neg, abs_mul, abs_of_pos hu]
  nlinarith

theorem representable_zero : Representable 0 := ⟨0, 0, by norm_num, by norm_num⟩

theorem roundBinary_representable (x : ℝ) : Representable (roundBinary x) := by
  by_cases hx : x = 0
  · rw [hx, roundBinary, zero_div, round_zero]
    simpa using representable_zero
  have hu := ulp_pos x
  obtain ⟨-, h2⟩ := binade hx
  have h3 : |x / ulp x| < 2 ^ 53 := by rwa [abs_div, abs_of_pos hu, div_lt_iff₀ hu]
  have h4 : |round (x / ulp x)| ≤ 2 ^ 53 := by
    have h5 := abs_lt.1 h3
    have h6 : round (x / ulp x) ≤ round ((2 ^ 53 : ℤ) : ℝ) := by
      rw [round_eq, round_eq]
      exact Int.floor_le_floor (by push_cast; linarith [h5.2])
    have h7 : round ((-2 ^ 53 : ℤ) : ℝ) ≤ round (x / ulp x) := by
      rw [round_eq, round_eq]
      exact Int.floor_le_floor (by push_cast; linarith [h5.1])
    rw [round_intCast] at h6 h7
    rw [abs_le]
    exact ⟨by linarith, h6⟩
  rcases h4.lt_or_eq with h5 | h5
  · exact ⟨_, _, h5, rfl⟩
  · unfold roundBinary
    rcases abs_eq (by norm_num : (0 : ℤ) ≤ 2 ^ 53) |>.1 h5 with h6 | h6
    · refine ⟨1, Int.log 2 |x| + 1, by norm_num, ?_⟩
      rw [h6, ulp, zpow_sub₀ (by norm_num), zpow_add₀ (by norm_num)]
      norm_num
      ring
    · refine ⟨-1, Int.log 2 |x| + 1, by norm_num, ?_⟩
      rw [h6, ulp, zpow_sub₀ (by norm_num), zpow_add₀ (by norm_num)]
      norm_num
      ring

/-- In and above the binade of `x`, the numbers of the format are multiples of the unit in the last place of `x`. -/
theorem multiple_of_representable {x y : ℝ} (hy : Representable y) (h : 2 ^ 52 * ulp x ≤ |y|) : ∃ n : ℤ, y = n * ulp x := by
  obtain ⟨m, e, hm, rfl⟩ := hy
  have hm' : |(m : ℝ)| < 2 ^ 53 := by exact_mod_cast hm
  rw [abs_mul, abs_of_pos (by positivity : (0 : ℝ) < 2 ^ e)] at h
  have h1 : ulp x < 2 * 2 ^ e := by
    have : |(m : ℝ)| * 2 ^ e < 2 ^ 53 * 2 ^ e := mul_lt_mul_of_pos_right hm' (by positivity)
    have h2 : (2 : ℝ) ^ 53 * 2 ^ e = 2 ^ 52 * (2 * 2 ^ e) := by ring
    rw [h2] at this
    exact lt_of_mul_lt_mul_left (h.trans_lt this) (by positivity)
  have h2 : Int.log 2 |x| - 52 < e + 1 := by
    unfold ulp at h1
    rw [← zpow_one_add₀ (by norm_num), add_comm] at h1
    exact (zpow_lt_zpow_iff_right₀ (by norm_num)).1 h1
  have h3 : 0 ≤ e - (Int.log 2 |x| - 52) := by omega
  obtain ⟨k, hk⟩ := Int.eq_ofNat_of_zero_le h3
  refine ⟨m * 2 ^ k, ?_⟩
  have h4 : (2 : ℝ) ^ e = 2 ^ k * ulp x := by
    unfold ulp
    rw [← zpow_natCast, ← zpow_add₀ (by norm_num)]
    congr 1
    omega
  rw [h4]
  push_cast
  ring

theorem roundBinary_nearest (x y : ℝ) (hy : Representable y) : |roundBinary x - x| ≤ |y - x| := by
  by_cases hx : x = 0
  · rw [hx, roundBinary, zero_div, round_zero]
    simp
  have hu := ulp_pos x
  obtain ⟨h1, -⟩ := binade hx
  have key : ∀ n : ℤ, |roundBinary x - x| ≤ |n * ulp x - x| := by
    intro n
    have h2 := round_le (x / ulp x) n
    have e1 : roundBinary x - x = -((x / ulp x - round (x / ulp x)) * ulp x) := by
      unfold roundBinary
      field_simp
      ring
    have e2 : n * ulp x - x = -((x / ulp x - n) * ulp x) := by
      field_simp
      ring
    rw [e1, e2, abs_neg, abs_neg, abs_mul, abs_mul]
    exact mul_le_mul_of_nonneg_right h2 (abs_nonneg _)
  by_cases h : 2 ^ 52 * ulp x ≤ |y|
  · obtain ⟨n, rfl⟩ := multiple_of_representable hy h
    exact key n
  · push Not at h
    have hy' := abs_lt.1 h
    rcases le_total 0 x with h0 | h0
    · rw [abs_of_nonneg h0] at h1
      refine (key (2 ^ 52)).trans ?_
      push_cast
      rw [abs_of_nonpos (by linarith), abs_of_nonpos (by linarith [hy'.2])]
      linarith [hy'.2]
    · rw [abs_of_nonpos h0] at h1
      refine (key (-2 ^ 52)).trans ?_
      push_cast
      rw [abs_of_nonneg (by linarith), abs_of_nonneg (by linarith [hy'.1])]
      linarith [hy'.1]

/-- Rounding to nearest has a relative error of at most `2⁻⁵³`. -/
theorem binary64_error {A : Arith} (h : A.Binary64) (x : ℝ) : |A.rnd x - x| ≤ 1 / 2 ^ 53 * |x| := by
  refine ((h x).2 _ (roundBinary_representable x)).trans ?_
  by_cases hx : x = 0
  · rw [hx, roundBinary, zero_div, round_zero]
    simp
  · refine (roundBinary_error x).trans ?_
    have := (binade hx).1
    linarith

/-- Numbers of the format are not changed. -/
theorem binary64_exact {A : Arith} (h : A.Binary64) {x : ℝ} (hx : Representable x) : A.rnd x = x := by
  have := (h x).2 x hx
  rw [sub_self, abs_zero] at this
  exact sub_eq_zero.1 (abs_eq_zero.1 (le_antisymm this (abs_nonneg _)))

/-- Binary64 with exact `sin`, `cos` and `atan2`. -/
noncomputable def binary64 : Arith := ⟨roundBinary, Real.sin, Real.cos, fun y x => Complex.arg ⟨x, y⟩⟩

theorem binary64_ok : binary64.Binary64 := fun x => ⟨roundBinary_representable x, roundBinary_nearest x⟩

theorem binary64_accurate : binary64.Accurate (1 / 2 ^ 53) :=
  ⟨by positivity, by norm_num, binary64_error binary64_ok, fun x y => by
    show |Complex.arg _ - Complex.arg _| ≤ _
    rw [sub_self, abs_zero]
    positivity⟩

end Fiksi
