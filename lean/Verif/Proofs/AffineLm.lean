import Verif.Spec.LevenbergMarquardt
import Mathlib.Tactic.Linarith
import Mathlib.Tactic.NormNum
import Mathlib.Tactic.Ring
import Mathlib.Tactic.Positivity
import Mathlib.Tactic.FieldSimp
import Mathlib.Algebra.Order.BigOperators.Group.Finset
import Mathlib.Algebra.BigOperators.Ring.Finset
/-!
# The Levenberg–Marquardt method for affine residuals
-/
namespace Fiksi.Spec
open Finset

theorem squares_eq_sum (v : List ℝ) : squares v = ∑ r ∈ range v.length, (v.getD r 0) ^ 2 := by
  induction v with
  | nil => rfl
  | cons a v ih =>
    rw [List.length_cons, Finset.sum_range_succ']
    simp only [List.getD_cons_succ, List.getD_cons_zero]
    rw [← ih, squares, squares, List.map_cons, List.sum_cons, add_comm]

theorem squares_nonneg (v : List ℝ) : 0 ≤ squares v := by
  rw [squares_eq_sum]
  exact Finset.sum_nonneg fun _ _ => sq_nonneg _

namespace Fitting
variable (P : Fitting)

/-- The residuals are affine functions of the variables, with the matrix `A`, and the gradient of the cost is not small where the cost is not: for all values of the variables
`|Aᵀr|² ≥ κ|r|²`; `B` bounds the square of the norm of `A`. -/
structure Affine (A : Nat → Nat → ℝ) (κ B : ℝ) : Prop where
  len : ∀ x, x.length = P.n → (P.res x).length = P.m
  jac : ∀ x, x.length = P.n → ∀ r < P.m, ∀ c < P.n, P.jac x r c = A r c
  step : ∀ x δ, x.length = P.n → δ.length = P.n → ∀ r < P.m, (P.res (add x δ)).getD r 0 = (P.res x).getD r 0 + ∑ c ∈ range P.n, A r c * δ.getD c 0
  steep : ∀ x, x.length = P.n → κ * P.cost x ≤ ∑ c ∈ range P.n, (∑ r ∈ range P.m, A r c * (P.res x).getD r 0) ^ 2
  norm : ∀ δ, δ.length = P.n → ∑ r ∈ range P.m, (∑ c ∈ range P.n, A r c * δ.getD c 0) ^ 2 ≤ B * squares δ

variable {P} {A : Nat → Nat → ℝ} {κ B : ℝ}

theorem add_length {x δ : List ℝ} {n : Nat} (hx : x.length = n) (hδ : δ.length = n) : (add x δ).length = n := by
  simp [add, hx, hδ]

theorem cost_nonneg (x : List ℝ) : 0 ≤ P.cost x := squares_nonneg _

/-- What a step does. -/
theorem Affine.isStep (h : P.Affine A κ B) {x δ : List ℝ} {lam : ℝ} (hx : x.length = P.n) (hs : P.IsStep x lam δ) :
    P.cost x = P.cost (add x δ) + 2 * lam * squares δ + ∑ r ∈ range P.m, (∑ c ∈ range P.n, A r c * δ.getD c 0) ^ 2 ∧
      κ * P.cost (add x δ) ≤ lam ^ 2 * squares δ := by
  obtain ⟨hδ, hs⟩ := hs
  have hx' := add_length hx hδ
  have hgrad : ∀ c ∈ range P.n, ∑ r ∈ range P.m, A r c * (P.res (add x δ)).getD r 0 = -lam * δ.getD c 0 := by
    intro c hc
    have h1 := hs c (mem_range.1 hc)
    have h2 : ∑ r ∈ range P.m, P.jac x r c * ((∑ c' ∈ range P.n, P.jac x r c' * δ.getD c' 0) + (P.res x).getD r 0) =
        ∑ r ∈ range P.m, A r c * (P.res (add x δ)).getD r 0 := by
      refine Finset.sum_congr rfl fun r hr => ?_
      have hr := mem_range.1 hr
      rw [h.step x δ hx hδ r hr, h.jac x hx r hr c (mem_range.1 hc), add_comm]
      congr 2
      exact Finset.sum_congr rfl fun c' hc' => by rw [h.jac x hx r hr c' (mem_range.1 hc')]
    rw [h2] at h1
    linarith
  have hsq : squares δ = ∑ c ∈ range P.n, (δ.getD c 0) ^ 2 := by rw [squares_eq_sum, hδ]
  refine ⟨?_, ?_⟩
  · have hcross : ∑ r ∈ range P.m, (P.res (add x δ)).getD r 0 * (∑ c ∈ range P.n, A r c * δ.getD c 0) = -lam * squares δ := by
      simp only [Finset.mul_sum]
      rw [Finset.sum_comm]
      rw [hsq, Finset.mul_sum]
      refine Finset.sum_congr rfl fun c hc => ?_
      have h1 := hgrad c hc
      calc ∑ r ∈ range P.m, (P.res (add x δ)).getD r 0 * (A r c * δ.getD c 0) = (∑ r ∈ range P.m, A r c * (P.res (add x δ)).getD r 0) * δ.getD c 0 := by
            rw [Finset.sum_mul]
            exact Finset.sum_congr rfl fun r _ => by ring
        _ = _ := by rw [h1]; ring
    have hc : ∀ y : List ℝ, y.length = P.n → P.cost y = ∑ r ∈ range P.m, ((P.res y).getD r 0) ^ 2 := by
      intro y hy
      rw [cost, squares_eq_sum, h.len y hy]
    rw [hc x hx, hc _ hx']
    have h3 : ∑ r ∈ range P.m, ((P.res x).getD r 0) ^ 2 = ∑ r ∈ range P.m, (((P.res (add x δ)).getD r 0) ^ 2 -
        2 * ((P.res (add x δ)).getD r 0 * (∑ c ∈ range P.n, A r c * δ.getD c 0)) + (∑ c ∈ range P.n, A r c * δ.getD c 0) ^ 2) := by
      refine Finset.sum_congr rfl fun r hr => ?_
      rw [h.step x δ hx hδ r (mem_range.1 hr)]
      ring
    rw [h3, Finset.sum_add_distrib, Finset.sum_sub_distrib, ← Finset.mul_sum, hcross]
    ring
  · refine (h.steep _ hx').trans (le_of_eq ?_)
    rw [hsq, Finset.mul_sum]
    exact Finset.sum_congr rfl fun c hc => by rw [hgrad c hc]; ring

/-- The cost decreases by a factor that only depends on the damping. -/
theorem Affine.factor (h : P.Affine A κ B) {x δ : List ℝ} {lam : ℝ} (hl : 0 < lam) (hx : x.length = P.n) (hs : P.IsStep x lam δ) :
    P.cost (add x δ) * (lam + 2 * κ) ≤ P.cost x * lam := by
  obtain ⟨h1, h2⟩ := h.isStep hx hs
  have h3 : 0 ≤ ∑ r ∈ range P.m, (∑ c ∈ range P.n, A r c * δ.getD c 0) ^ 2 := Finset.sum_nonneg fun _ _ => sq_nonneg _
  rw [h1]
  nlinarith [mul_nonneg hl.le h3]

/-- The first step of a search is its last. -/
theorem Affine.search (h : P.Affine A κ B) {x δ : List ℝ} {lam μ : ℝ} (hl : 0 < lam) (hx : x.length = P.n) (hs : P.Search x lam μ δ) :
    μ = lam ∧ P.IsStep x lam δ := by
  cases hs with
  | found h1 _ => exact ⟨rfl, h1⟩
  | @doubled _ δ' _ _ h1 h2 h3 _ =>
    exfalso
    obtain ⟨h4, -⟩ := h.isStep hx h1
    have h5 : 0 ≤ ∑ r ∈ range P.m, (∑ c ∈ range P.n, A r c * δ'.getD c 0) ^ 2 := Finset.sum_nonneg fun r _ => sq_nonneg _
    have h6 := mul_pos hl (lt_of_lt_of_le (by norm_num) h2)
    linarith

/-- The bound on the cost when the step is tiny. -/
noncomputable def tinyCost (κ B : ℝ) : ℝ := (1 / (4 * κ) + 1 + B) / 10 ^ 12

theorem Affine.tiny (h : P.Affine A κ B) (hκ : 0 < κ) (hB : 0 ≤ B) {x δ : List ℝ} {lam : ℝ} (hl : 0 < lam) (hl' : lam ≤ 1 / 2) (hx : x.length = P.n) (hs : P.IsStep x lam δ)
    (hδ : squares δ < 1 / 10 ^ 12) : P.cost x ≤ tinyCost κ B := by
  obtain ⟨h1, h2⟩ := h.isStep hx hs
  have h3 := h.norm δ hs.1
  have h0 := squares_nonneg δ
  have h4 : P.cost (add x δ) ≤ 1 / (4 * κ) * squares δ := by
    rw [div_mul_eq_mul_div, one_mul, le_div_iff₀ (by linarith)]
    have : lam ^ 2 ≤ 1 / 4 := by nlinarith
    nlinarith
  have h5 : P.cost x ≤ (1 / (4 * κ) + 1 + B) * squares δ := by
    rw [h1]
    nlinarith
  have h6 : 0 < 1 / (4 * κ) + 1 + B := by positivity
  rw [tinyCost]
  calc P.cost x ≤ _ := h5
    _ ≤ (1 / (4 * κ) + 1 + B) * (1 / 10 ^ 12) := mul_le_mul_of_nonneg_left hδ.le h6.le
    _ = _ := by ring

/-- The cost after steps with small damping. -/
theorem Affine.run_fast (h : P.Affine A κ B) (hκ : 1 / 10 ^ 6 ≤ κ) (hB : 0 ≤ B) : ∀ (K : Nat) (x z : List ℝ) (lam : ℝ), x.length = P.n → 0 < lam → lam ≤ κ / 10 ^ 6 → lam ≤ 1 / 2 →
    P.Run K x lam z → z.length = P.n ∧ (P.cost z < 1 / 10 ^ 8 ∨ P.cost z ≤ tinyCost κ B ∨ P.cost z * (10 ^ 6) ^ K ≤ P.cost x) := by
  have hκ0 : 0 < κ := lt_of_lt_of_le (by norm_num) hκ
  intro K
  induction K with
  | zero =>
    intro x z lam hx hl _ _ hr
    cases hr
    exact ⟨hx, .inr (.inr (by simp))⟩
  | succ K ih =>
    intro x z lam hx hl hl1 hl2 hr
    cases hr with
    | solved h1 => exact ⟨hx, .inl h1⟩
    | tiny h1 h2 h3 =>
      obtain ⟨rfl, h4⟩ := h.search hl hx h2
      exact ⟨hx, .inr (.inl (h.tiny hκ0 hB hl hl2 hx h4 h3))⟩
    | stalled h1 h2 h3 h4 =>
      exfalso
      obtain ⟨rfl, h5⟩ := h.search hl hx h2
      have h6 := h.factor hl hx h5
      have h7 : 0 < P.cost x := lt_of_lt_of_le (by norm_num) h1
      nlinarith
    | @step _ _ _ μ δ _ h1 h2 h3 h4 h5 =>
      obtain ⟨rfl, h6⟩ := h.search hl hx h2
      have h7 := h.factor hl hx h6
      have hx' := add_length hx h6.1
      have h50 : (1 : ℝ) / 10 ^ 50 ≤ κ / 10 ^ 6 := by
        have : (1 : ℝ) / 10 ^ 50 ≤ (1 / 10 ^ 6) / 10 ^ 6 := by norm_num
        exact this.trans (by gcongr)
      obtain ⟨h8, h9⟩ := ih (add x δ) z _ hx' (lt_of_lt_of_le (by norm_num) (le_max_right _ _)) (max_le (by linarith) h50) (max_le (by linarith) (by norm_num)) h5
      refine ⟨h8, ?_⟩
      rcases h9 with h9 | h9 | h9
      · exact .inl h9
      · exact .inr (.inl h9)
      · refine .inr (.inr ?_)
        have h10 : P.cost (add x δ) * 10 ^ 6 ≤ P.cost x := by
          have h11 : P.cost (add x δ) * (2 * κ) ≤ P.cost x * (κ / 10 ^ 6) := by
            have := cost_nonneg (P := P) (add x δ)
            have := cost_nonneg (P := P) x
            nlinarith
          have h12 : κ * (P.cost (add x δ) * 10 ^ 6) ≤ κ * P.cost x := by
            have := mul_nonneg hκ0.le (cost_nonneg (P := P) x)
            linarith
          exact le_of_mul_le_mul_left h12 hκ0
        rw [pow_succ, ← mul_assoc]
        nlinarith

/-- The cost after steps, the first `j` of which may have larger damping. -/
theorem Affine.run_slow (h : P.Affine A κ B) (hκ : 1 / 10 ^ 6 ≤ κ) (hB : 0 ≤ B) (K : Nat) : ∀ (j : Nat) (x z : List ℝ) (lam : ℝ), x.length = P.n → 0 < lam →
    lam ≤ κ / 10 ^ 6 * 8 ^ j → lam ≤ 1 / 2 → P.Run (K + j) x lam z →
    z.length = P.n ∧ (P.cost z < 1 / 10 ^ 8 ∨ P.cost z ≤ tinyCost κ B ∨ P.cost z * (10 ^ 6) ^ K ≤ P.cost x) := by
  have hκ0 : 0 < κ := lt_of_lt_of_le (by norm_num) hκ
  intro j
  induction j with
  | zero =>
    intro x z lam hx hl h1 h2 hr
    exact h.run_fast hκ hB K x z lam hx hl (by simpa using h1) h2 hr
  | succ j ih =>
    intro x z lam hx hl hl1 hl2 hr
    rw [← add_assoc] at hr
    cases hr with
    | solved h1 => exact ⟨hx, .inl h1⟩
    | tiny h1 h2 h3 =>
      obtain ⟨rfl, h4⟩ := h.search hl hx h2
      exact ⟨hx, .inr (.inl (h.tiny hκ0 hB hl hl2 hx h4 h3))⟩
    | stalled h1 h2 h3 h4 =>
      exfalso
      obtain ⟨rfl, h5⟩ := h.search hl hx h2
      have h6 := h.factor hl hx h5
      have h7 : 0 < P.cost x := lt_of_lt_of_le (by norm_num) h1
      nlinarith
    | @step _ _ _ μ δ _ h1 h2 h3 h4 h5 =>
      obtain ⟨rfl, h6⟩ := h.search hl hx h2
      have h7 := h.factor hl hx h6
      have hx' := add_length hx h6.1
      have h50 : (1 : ℝ) / 10 ^ 50 ≤ κ / 10 ^ 6 * 8 ^ j := by
        have h8 : (1 : ℝ) / 10 ^ 50 ≤ (1 / 10 ^ 6) / 10 ^ 6 := by norm_num
        have h9 : κ / 10 ^ 6 ≤ κ / 10 ^ 6 * 8 ^ j := le_mul_of_one_le_right (by positivity) (one_le_pow₀ (by norm_num))
        exact h8.trans (le_trans (by gcongr) h9)
      have h8 : μ / 8 ≤ κ / 10 ^ 6 * 8 ^ j := by
        rw [pow_succ (8 : ℝ) j] at hl1
        linarith
      obtain ⟨h10, h9⟩ := ih (add x δ) z _ hx' (lt_of_lt_of_le (by norm_num) (le_max_right _ _)) (max_le h8 h50) (max_le (by linarith) (by norm_num)) h5
      refine ⟨h10, ?_⟩
      rcases h9 with h9 | h9 | h9
      · exact .inl h9
      · exact .inr (.inl h9)
      · refine .inr (.inr (h9.trans ?_))
        have := cost_nonneg (P := P) (add x δ)
        nlinarith

/-- The method solves affine problems from any start that is not extremely far away. -/
theorem Affine.run (h : P.Affine A κ B) (hκ : 1 / 10 ^ 6 ≤ κ) (hB : 0 ≤ B) {x z : List ℝ} (hx : x.length = P.n) (h0 : P.cost x ≤ 10 ^ 500) (hr : P.Run 100 x (1 / 2) z) :
    z.length = P.n ∧ P.cost z ≤ max (1 / 10 ^ 8) (tinyCost κ B) := by
  obtain ⟨h1, h2⟩ := h.run_slow hκ hB 86 14 x z (1 / 2) hx (by norm_num) (by
    have : (1 : ℝ) / 2 ≤ 1 / 10 ^ 6 / 10 ^ 6 * 8 ^ 14 := by norm_num
    exact this.trans (by gcongr)) le_rfl hr
  refine ⟨h1, ?_⟩
  rcases h2 with h2 | h2 | h2
  · exact h2.le.trans (le_max_left _ _)
  · exact h2.trans (le_max_right _ _)
  · refine le_trans ?_ (le_max_left _ _)
    have h3 : P.cost z * (10 ^ 6) ^ 86 ≤ 10 ^ 500 := h2.trans h0
    have h4 : ((10 : ℝ) ^ 6) ^ 86 = 10 ^ 500 * 10 ^ 16 := by rw [← pow_mul, ← pow_add]
    rw [h4, ← mul_assoc, mul_comm, ← mul_assoc] at h3
    have h5 : (0 : ℝ) < 10 ^ 500 := by positivity
    have h6 : 10 ^ 16 * P.cost z ≤ 1 := by
      refine le_of_mul_le_mul_right ?_ h5
      rw [one_mul]
      exact h3
    have h7 := cost_nonneg (P := P) z
    clear h2 h3 h4 h5 h0
    rw [le_div_iff₀ (by norm_num)]
    norm_num at h6 ⊢
    linarith

end Fitting
end Fiksi.Spec
