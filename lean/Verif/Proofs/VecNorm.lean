import Verif.Proofs.QrNumeric
import Mathlib.Algebra.Order.BigOperators.Ring.Finset
/-!
# The length of vectors, and reflectors
-/
namespace Fiksi

open Spec

/-- The Euclidean length of the first `m` entries. -/
noncomputable def nrm (m : Nat) (x : Nat → ℝ) : ℝ := √(∑ s ∈ Finset.range m, x s * x s)

section
variable {m : Nat}

theorem sum_self_nonneg (x : Nat → ℝ) : 0 ≤ ∑ s ∈ Finset.range m, x s * x s := Finset.sum_nonneg (fun _ _ => mul_self_nonneg _)

theorem nrm_nonneg (x : Nat → ℝ) : 0 ≤ nrm m x := Real.sqrt_nonneg _

theorem nrm_mul_self (x : Nat → ℝ) : nrm m x * nrm m x = ∑ s ∈ Finset.range m, x s * x s := Real.mul_self_sqrt (sum_self_nonneg x)

theorem nrm_eq_of {x y : Nat → ℝ} (h : ∑ s ∈ Finset.range m, x s * x s = ∑ s ∈ Finset.range m, y s * y s) : nrm m x = nrm m y := by
  rw [nrm, nrm, h]

theorem nrm_mono {x y : Nat → ℝ} (h : ∀ s, s < m → |x s| ≤ |y s|) : nrm m x ≤ nrm m y := by
  apply Real.sqrt_le_sqrt
  refine Finset.sum_le_sum (fun s hs => ?_)
  rw [← abs_mul_abs_self (x s), ← abs_mul_abs_self (y s)]
  have := h s (Finset.mem_range.1 hs)
  exact mul_le_mul this this (abs_nonneg _) (abs_nonneg _)

theorem nrm_abs (x : Nat → ℝ) : nrm m (fun s => |x s|) = nrm m x := by
  apply nrm_eq_of
  exact Finset.sum_congr rfl (fun s _ => abs_mul_abs_self _)

theorem nrm_smul (c : ℝ) (x : Nat → ℝ) : nrm m (fun s => c * x s) = |c| * nrm m x := by
  rw [nrm, nrm, ← Real.sqrt_mul_self_eq_abs, ← Real.sqrt_mul (mul_self_nonneg c), Finset.mul_sum]
  congr 1
  exact Finset.sum_congr rfl (fun s _ => by ring)

theorem nrm_inner (x y : Nat → ℝ) : ∑ s ∈ Finset.range m, x s * y s ≤ nrm m x * nrm m y := by
  apply le_of_abs_le
  apply abs_le_of_sq_le_sq _ (mul_nonneg (nrm_nonneg x) (nrm_nonneg y))
  have h := Finset.sum_mul_sq_le_sq_mul_sq (Finset.range m) x y
  rw [show (nrm m x * nrm m y) ^ 2 = (nrm m x * nrm m x) * (nrm m y * nrm m y) by ring, nrm_mul_self, nrm_mul_self]
  simpa only [sq (x _), sq (y _)] using h

theorem nrm_inner_abs (x y : Nat → ℝ) : ∑ s ∈ Finset.range m, |x s| * |y s| ≤ nrm m x * nrm m y := by
  have := nrm_inner (m := m) (fun s => |x s|) (fun s => |y s|)
  rwa [nrm_abs, nrm_abs] at this

theorem nrm_add (x y : Nat → ℝ) : nrm m (fun s => x s + y s) ≤ nrm m x + nrm m y := by
  have h0 := add_nonneg (nrm_nonneg (m := m) x) (nrm_nonneg (m := m) y)
  apply le_of_sq_le_sq _ h0
  have h1 : ∑ s ∈ Finset.range m, (x s + y s) * (x s + y s) =
      ∑ s ∈ Finset.range m, x s * x s + 2 * ∑ s ∈ Finset.range m, x s * y s + ∑ s ∈ Finset.range m, y s * y s := by
    rw [Finset.mul_sum, ← Finset.sum_add_distrib, ← Finset.sum_add_distrib]
    exact Finset.sum_congr rfl (fun s _ => by ring)
  rw [sq, nrm_mul_self, h1, ← nrm_mul_self x, ← nrm_mul_self y]
  have := nrm_inner (m := m) x y
  nlinarith

theorem nrm_entry {x : Nat → ℝ} {t : Nat} (ht : t < m) : |x t| ≤ nrm m x := by
  rw [← Real.sqrt_mul_self_eq_abs]
  apply Real.sqrt_le_sqrt
  exact Finset.single_le_sum (f := fun s => x s * x s) (fun s _ => mul_self_nonneg _) (Finset.mem_range.2 ht)

theorem nrm_single {c : ℝ} {j : Nat} : nrm m (fun t => if t = j then c else 0) ≤ |c| := by
  rw [← Real.sqrt_mul_self_eq_abs]
  apply Real.sqrt_le_sqrt
  by_cases hj : j ∈ Finset.range m
  · rw [Finset.sum_eq_single_of_mem j hj (fun t _ ht => by simp [ht])]
    simp
  · rw [Finset.sum_eq_zero (fun t ht => by
      have : t ≠ j := by rintro rfl; exact hj ht
      simp [this])]
    exact mul_self_nonneg c

/-! ## Reflectors -/

theorem reflect_nrm {β : ℝ} {v : Nat → ℝ} (h : Orthogonal m β v) (x : Nat → ℝ) : nrm m (reflect m β v x) = nrm m x := nrm_eq_of (reflect_inner h x x)

theorem reflect_reflect {β : ℝ} {v : Nat → ℝ} (h : Orthogonal m β v) (x : Nat → ℝ) : reflect m β v (reflect m β v x) = x := by
  funext t
  unfold Orthogonal at h
  have h1 : ∀ c, ∑ s ∈ Finset.range m, v s * (x s - v s * c) =
      ∑ s ∈ Finset.range m, v s * x s - (∑ s ∈ Finset.range m, v s * v s) * c := by
    intro c
    rw [Finset.sum_mul, ← Finset.sum_sub_distrib]
    exact Finset.sum_congr rfl (fun s _ => by ring)
  simp only [reflect]
  rw [h1]
  linear_combination v t * (∑ s ∈ Finset.range m, v s * x s) * h

/-- The length of the vector of a reflector. -/
theorem Orthogonal.bound {β : ℝ} {v : Nat → ℝ} (h : Orthogonal m β v) : |β| * (nrm m v * nrm m v) ≤ 2 := by
  rw [nrm_mul_self]
  unfold Orthogonal at h
  rcases mul_eq_zero.1 h with h | h
  · rw [h, abs_zero, zero_mul]; norm_num
  · rw [← abs_of_nonneg (sum_self_nonneg v), ← abs_mul, show β * ∑ s ∈ Finset.range m, v s * v s = 2 by linarith]
    norm_num

section
variable {b : Nat → ℝ} {v : Nat → Nat → ℝ} {k : Nat} (h : ∀ i, i < k → Orthogonal m (b i) (v i))
include h

theorem reflectAll_nrm (x : Nat → ℝ) : nrm m (reflectAll m b v k x) = nrm m x := nrm_eq_of (reflectAll_inner h x x)

theorem reflectAll_surj (e : Nat → ℝ) : ∃ d, reflectAll m b v k d = e ∧ nrm m d = nrm m e := by
  induction k generalizing e with
  | zero => exact ⟨e, rfl, rfl⟩
  | succ k ih =>
    obtain ⟨d, h1, h2⟩ := ih (fun i hi => h i (by omega)) (reflect m (b k) (v k) e)
    have ho := h k (by omega)
    exact ⟨d, by rw [reflectAll, h1, reflect_reflect ho], by rw [h2, reflect_nrm ho]⟩

/-- A perturbation of the result is one of the vector. -/
theorem reflectAll_perturb {B Δ X Y : Nat → ℝ} (hX : reflectAll m b v k (fun t => B t + Δ t) = X) {p δ : ℝ} (hΔ : nrm m Δ ≤ p * nrm m B)
    (hδ : 0 ≤ δ) (hY : nrm m (fun t => Y t - X t) ≤ δ * nrm m X) :
    ∃ Δ', nrm m Δ' ≤ (p + δ * (1 + p)) * nrm m B ∧ reflectAll m b v k (fun t => B t + Δ' t) = Y := by
  obtain ⟨d, h1, h2⟩ := reflectAll_surj h (fun t => Y t - X t)
  refine ⟨fun t => Δ t + d t, ?_, ?_⟩
  · have h3 : nrm m X ≤ (1 + p) * nrm m B := by
      rw [← hX, reflectAll_nrm h]
      have := nrm_add (m := m) B Δ
      linarith
    have h4 := nrm_add (m := m) Δ d
    have h5 := mul_le_mul_of_nonneg_left h3 hδ
    rw [h2] at h4
    linarith
  · have : (fun t => B t + (Δ t + d t)) = fun t => (B t + Δ t) + d t := by funext t; ring
    rw [this, reflectAll_add, h1, hX]
    funext t
    ring

end

/-- One reflector more, with an error. -/
theorem reflectAll_step {b : Nat → ℝ} {v : Nat → Nat → ℝ} {k : Nat} (h : ∀ i, i < k + 1 → Orthogonal m (b i) (v i)) {B Δ X Y : Nat → ℝ}
    (hX : reflectAll m b v k (fun t => B t + Δ t) = X) {ε : ℝ} (hε : 0 ≤ ε) (hΔ : nrm m Δ ≤ ((1 + ε) ^ k - 1) * nrm m B)
    (hY : nrm m (fun t => Y t - reflect m (b k) (v k) X t) ≤ ε * nrm m X) :
    ∃ Δ', nrm m Δ' ≤ ((1 + ε) ^ (k + 1) - 1) * nrm m B ∧ reflectAll m b v (k + 1) (fun t => B t + Δ' t) = Y := by
  obtain ⟨Δ', h1, h2⟩ := reflectAll_perturb h (X := reflect m (b k) (v k) X) (Y := Y) (by rw [reflectAll, hX]) hΔ hε
    (by rw [reflect_nrm (h k (by omega))]; exact hY)
  exact ⟨Δ', h1.trans_eq (by ring), h2⟩

end

end Fiksi
