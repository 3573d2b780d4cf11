import Verif.Spec.Rounding
import Mathlib.Tactic.Linarith
import Mathlib.Tactic.Positivity
import Mathlib.Tactic.FieldSimp
/-!
# Accumulated relative errors

Factors between `(1 - u)^k` and `(1 - u)^(-k)`: what `k` roundings can do to a number.
-/
namespace Fiksi

open Spec

/-- A factor that `k` roundings can cause. -/
def Ratio (u : ℝ) (k : Nat) (ρ : ℝ) : Prop := (1 - u) ^ k ≤ ρ ∧ ρ * (1 - u) ^ k ≤ 1

/-- The largest relative error that `k` roundings can cause. -/
noncomputable def gap (u : ℝ) (k : Nat) : ℝ := ((1 - u) ^ k)⁻¹ - 1

section
variable {u : ℝ} (h0 : 0 ≤ u) (h1 : u < 1)
include h0 h1

theorem wpow_pos (k : Nat) : 0 < (1 - u) ^ k := pow_pos (by linarith) k

theorem wpow_le_one (k : Nat) : (1 - u) ^ k ≤ 1 := pow_le_one₀ (by linarith) (by linarith)

theorem gap_nonneg (k : Nat) : 0 ≤ gap u k := by
  have := (one_le_inv₀ (wpow_pos h0 h1 k)).2 (wpow_le_one h0 h1 k)
  unfold gap
  linarith

theorem gap_mono {k l : Nat} (h : k ≤ l) : gap u k ≤ gap u l := by
  have := inv_anti₀ (wpow_pos h0 h1 l) (pow_le_pow_of_le_one (by linarith) (by linarith : 1 - u ≤ 1) h)
  unfold gap
  linarith

theorem one_add_gap (k : Nat) : 1 + gap u k = ((1 - u) ^ k)⁻¹ := by unfold gap; ring

theorem one_add_gap_mul (k l : Nat) : (1 + gap u k) * (1 + gap u l) = 1 + gap u (k + l) := by
  rw [one_add_gap h0 h1, one_add_gap h0 h1, one_add_gap h0 h1, pow_add, mul_inv]

theorem one_add_gap_pow (k n : Nat) : (1 + gap u k) ^ n = 1 + gap u (k * n) := by
  rw [one_add_gap h0 h1, one_add_gap h0 h1, pow_mul, inv_pow]

/-- `k` roundings change a number by at most `2 k u`, if there are not too many. -/
theorem gap_le {k : Nat} (h : k * u ≤ 1 / 2) : gap u k ≤ 2 * k * u := by
  have hb : 1 - k * u ≤ (1 - u) ^ k := by
    have := one_add_mul_le_pow (a := -u) (by linarith) k
    simpa [sub_eq_add_neg] using this
  have hp : 0 < 1 - k * u := by linarith
  have hk : 0 ≤ k * u := mul_nonneg (Nat.cast_nonneg _) h0
  unfold gap
  have h2 : ((1 - u) ^ k)⁻¹ ≤ (1 - k * u)⁻¹ := inv_anti₀ hp hb
  have h3 : (1 - k * u)⁻¹ ≤ 1 + 2 * (k * u) := by
    rw [inv_le_iff_one_le_mul₀ hp]
    nlinarith
  linarith

theorem Ratio.one (k : Nat) : Ratio u k 1 := ⟨wpow_le_one h0 h1 k, by rw [one_mul]; exact wpow_le_one h0 h1 k⟩

theorem Ratio.pos {k : Nat} {ρ : ℝ} (h : Ratio u k ρ) : 0 < ρ := (wpow_pos h0 h1 k).trans_le h.1

theorem Ratio.mono {k l : Nat} {ρ : ℝ} (h : Ratio u k ρ) (hkl : k ≤ l) : Ratio u l ρ := by
  have hp := pow_le_pow_of_le_one (by linarith) (by linarith : 1 - u ≤ 1) hkl
  exact ⟨hp.trans h.1, (mul_le_mul_of_nonneg_left hp (h.pos h0 h1).le).trans h.2⟩

theorem Ratio.mul {k l : Nat} {ρ σ : ℝ} (h : Ratio u k ρ) (h' : Ratio u l σ) : Ratio u (k + l) (ρ * σ) := by
  have := wpow_pos h0 h1 l
  have := wpow_pos h0 h1 k
  have := h.pos h0 h1
  have := h'.pos h0 h1
  refine ⟨by rw [pow_add]; exact mul_le_mul h.1 h'.1 (by positivity) (by positivity), ?_⟩
  rw [pow_add, show ρ * σ * ((1 - u) ^ k * (1 - u) ^ l) = (ρ * (1 - u) ^ k) * (σ * (1 - u) ^ l) by ring]
  exact mul_le_one₀ h.2 (by positivity) h'.2

theorem Ratio.inv {k : Nat} {ρ : ℝ} (h : Ratio u k ρ) : Ratio u k ρ⁻¹ := by
  have hp := h.pos h0 h1
  refine ⟨?_, ?_⟩
  · rw [le_inv_comm₀ (wpow_pos h0 h1 k) hp, ← one_div, le_div_iff₀ (wpow_pos h0 h1 k)]
    exact h.2
  · rw [inv_mul_le_iff₀ hp, mul_one]
    exact h.1

theorem Ratio.div {k l : Nat} {ρ σ : ℝ} (h : Ratio u k ρ) (h' : Ratio u l σ) : Ratio u (k + l) (ρ / σ) := by
  rw [div_eq_mul_inv]
  exact h.mul h0 h1 (h'.inv h0 h1)

theorem Ratio.sqrt {k : Nat} {ρ : ℝ} (h : Ratio u k ρ) : Ratio u k (√ρ) := by
  have hp := wpow_pos h0 h1 k
  have hρ := h.pos h0 h1
  have hle : (1 - u) ^ k ≤ √((1 - u) ^ k) := Real.le_sqrt_of_sq_le (by nlinarith [wpow_le_one h0 h1 k])
  refine ⟨hle.trans (Real.sqrt_le_sqrt h.1), ?_⟩
  calc √ρ * (1 - u) ^ k ≤ √ρ * √((1 - u) ^ k) := mul_le_mul_of_nonneg_left hle (Real.sqrt_nonneg _)
    _ = √(ρ * (1 - u) ^ k) := (Real.sqrt_mul hρ.le _).symm
    _ ≤ 1 := Real.sqrt_le_one.2 h.2

/-- The factor differs from one by at most the gap. -/
theorem Ratio.abs {k : Nat} {ρ : ℝ} (h : Ratio u k ρ) : |ρ - 1| ≤ gap u k := by
  have hp := wpow_pos h0 h1 k
  have h2 : ρ ≤ ((1 - u) ^ k)⁻¹ := by
    rw [← one_div, le_div_iff₀ hp]
    exact h.2
  have h3 : 2 ≤ (1 - u) ^ k + ((1 - u) ^ k)⁻¹ := by
    have : (1 - u) ^ k * ((1 - u) ^ k)⁻¹ = 1 := mul_inv_cancel₀ hp.ne'
    have hi : 0 < ((1 - u) ^ k)⁻¹ := inv_pos.2 hp
    nlinarith [sq_nonneg ((1 - u) ^ k - ((1 - u) ^ k)⁻¹)]
  rw [abs_le]
  unfold gap
  constructor <;> linarith [h.1]

/-- The relative errors of numbers of the same sign do not add up. -/
theorem Ratio.add {k : Nat} {ρ σ x y : ℝ} (h : Ratio u k ρ) (h' : Ratio u k σ) (hx : 0 ≤ x) (hy : 0 ≤ y) :
    ∃ τ, Ratio u k τ ∧ ρ * x + σ * y = τ * (x + y) := by
  rcases (add_nonneg hx hy).eq_or_lt with hz | hp
  · refine ⟨1, Ratio.one h0 h1 k, ?_⟩
    have hx0 : x = 0 := by linarith
    have hy0 : y = 0 := by linarith
    rw [hx0, hy0]
    ring
  · refine ⟨(ρ * x + σ * y) / (x + y), ⟨?_, ?_⟩, (div_mul_cancel₀ _ hp.ne').symm⟩
    · rw [le_div_iff₀ hp, mul_add]
      exact add_le_add (mul_le_mul_of_nonneg_right h.1 hx) (mul_le_mul_of_nonneg_right h'.1 hy)
    · rw [div_mul_eq_mul_div, div_le_one hp]
      nlinarith [mul_le_mul_of_nonneg_right h.2 hx, mul_le_mul_of_nonneg_right h'.2 hy]

end

/-- A result of arithmetic in which `k` roundings have been made. -/
def Near (u : ℝ) (k : Nat) (x' x : ℝ) : Prop := ∃ ρ, Ratio u k ρ ∧ x' = ρ * x

section
variable {u : ℝ} (h0 : 0 ≤ u) (h1 : u < 1)
include h0 h1

theorem Near.refl (x : ℝ) : Near u 0 x x := ⟨1, Ratio.one h0 h1 0, by ring⟩

theorem Near.mono {k l : Nat} {x' x : ℝ} (h : Near u k x' x) (hkl : k ≤ l) : Near u l x' x := by
  obtain ⟨ρ, h2, h3⟩ := h
  exact ⟨ρ, h2.mono h0 h1 hkl, h3⟩

theorem Near.trans {k l : Nat} {x'' x' x : ℝ} (h : Near u k x'' x') (h' : Near u l x' x) : Near u (k + l) x'' x := by
  obtain ⟨ρ, h2, rfl⟩ := h
  obtain ⟨σ, h4, rfl⟩ := h'
  exact ⟨ρ * σ, h2.mul h0 h1 h4, by ring⟩

theorem Near.mul {k l : Nat} {x' x y' y : ℝ} (h : Near u k x' x) (h' : Near u l y' y) : Near u (k + l) (x' * y') (x * y) := by
  obtain ⟨ρ, h2, rfl⟩ := h
  obtain ⟨σ, h4, rfl⟩ := h'
  exact ⟨ρ * σ, h2.mul h0 h1 h4, by ring⟩

theorem Near.div {k l : Nat} {x' x y' y : ℝ} (h : Near u k x' x) (h' : Near u l y' y) : Near u (k + l) (x' / y') (x / y) := by
  obtain ⟨ρ, h2, rfl⟩ := h
  obtain ⟨σ, h4, rfl⟩ := h'
  exact ⟨ρ / σ, h2.div h0 h1 h4, mul_div_mul_comm _ _ _ _⟩

theorem Near.neg {k : Nat} {x' x : ℝ} (h : Near u k x' x) : Near u k (-x') (-x) := by
  obtain ⟨ρ, h2, rfl⟩ := h
  exact ⟨ρ, h2, by ring⟩

theorem Near.add {k : Nat} {x' x y' y : ℝ} (h : Near u k x' x) (h' : Near u k y' y) (hx : 0 ≤ x) (hy : 0 ≤ y) : Near u k (x' + y') (x + y) := by
  obtain ⟨ρ, h2, rfl⟩ := h
  obtain ⟨σ, h4, rfl⟩ := h'
  obtain ⟨τ, h5, h6⟩ := h2.add h0 h1 h4 hx hy
  exact ⟨τ, h5, h6⟩

theorem Near.sqrt {k : Nat} {x' x : ℝ} (h : Near u k x' x) : Near u k (√x') (√x) := by
  obtain ⟨ρ, h2, rfl⟩ := h
  exact ⟨√ρ, h2.sqrt h0 h1, Real.sqrt_mul (h2.pos h0 h1).le x⟩

theorem Near.abs {k : Nat} {x' x : ℝ} (h : Near u k x' x) : |x' - x| ≤ gap u k * |x| := by
  obtain ⟨ρ, h2, rfl⟩ := h
  rw [show ρ * x - x = (ρ - 1) * x by ring, abs_mul]
  exact mul_le_mul_of_nonneg_right (h2.abs h0 h1) (abs_nonneg _)

theorem Near.eq_zero_iff {k : Nat} {x' x : ℝ} (h : Near u k x' x) : x' = 0 ↔ x = 0 := by
  obtain ⟨ρ, h2, rfl⟩ := h
  have := (h2.pos h0 h1).ne'
  constructor
  · intro h
    exact (mul_eq_zero.1 h).resolve_left this
  · rintro rfl
    ring

end

/-- One rounding. -/
theorem Spec.Arith.Accurate.near {A : Arith} {u : ℝ} (hA : A.Accurate u) (x : ℝ) : Near u 1 (A.rnd x) x := by
  have h0 := hA.pos
  have h1 : u < 1 := hA.small.trans_lt (by norm_num)
  have h := hA.rnd x
  rcases eq_or_ne x 0 with rfl | hx
  · rw [abs_zero, mul_zero] at h
    refine ⟨1, Ratio.one h0 h1 1, ?_⟩
    have := abs_nonpos_iff.1 h
    linarith
  · refine ⟨A.rnd x / x, ?_, (div_mul_cancel₀ _ hx).symm⟩
    have h2 : |A.rnd x / x - 1| ≤ u := by
      rw [show A.rnd x / x - 1 = (A.rnd x - x) / x by field_simp, abs_div, div_le_iff₀ (abs_pos.2 hx)]
      exact h
    rw [abs_le] at h2
    constructor
    · rw [pow_one]; linarith
    · rw [pow_one]; nlinarith

theorem Spec.Arith.Accurate.lt_one {A : Arith} {u : ℝ} (hA : A.Accurate u) : u < 1 := hA.small.trans_lt (by norm_num)

/-- A rounding more. -/
theorem Near.rnd {A : Arith} {u : ℝ} (hA : A.Accurate u) {k : Nat} {x' x : ℝ} (h : Near u k x' x) : Near u (k + 1) (A.rnd x') x := by
  rw [Nat.add_comm]
  exact (hA.near x').trans hA.pos hA.lt_one h

end Fiksi
