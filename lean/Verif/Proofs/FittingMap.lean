import Verif.Props.Coincidence
/-!
# Levenberg–Marquardt on equivalent problems

A damped step minimises the linear model plus the damping. A bijection of the variables that keeps lengths, the cost and the linear model therefore carries runs of the method to runs of the method.
-/
namespace Fiksi.Spec.Fitting

/-- The sum of squares of the linear model at `x`. -/
noncomputable def model (P : Fitting) (x δ : List ℝ) : ℝ :=
  ∑ r ∈ Finset.range P.m, ((∑ c ∈ Finset.range P.n, P.jac x r c * δ.getD c 0) + (P.res x).getD r 0) ^ 2

theorem add_getD {n : Nat} {x δ : List ℝ} (hx : x.length = n) (hδ : δ.length = n) (c : Nat) : (add x δ).getD c 0 = x.getD c 0 + δ.getD c 0 := by
  rw [add, List.getD_eq_getElem?_getD, List.getElem?_zipWith, List.getD_eq_getElem?_getD, List.getD_eq_getElem?_getD]
  by_cases hc : c < n
  · rw [List.getElem?_eq_getElem (by omega), List.getElem?_eq_getElem (by omega)]; rfl
  · rw [List.getElem?_eq_none (by omega), List.getElem?_eq_none (by omega)]; simp

/-- The objective along a direction. -/
theorem model_add (P : Fitting) {x δ η : List ℝ} (hδ : δ.length = P.n) (hη : η.length = P.n) (lam : ℝ) :
    P.model x (add δ η) + lam * squares (add δ η) = P.model x δ + lam * squares δ +
      2 * (∑ c ∈ Finset.range P.n, η.getD c 0 *
        ((∑ r ∈ Finset.range P.m, P.jac x r c * ((∑ c' ∈ Finset.range P.n, P.jac x r c' * δ.getD c' 0) + (P.res x).getD r 0)) + lam * δ.getD c 0)) +
      ((∑ r ∈ Finset.range P.m, (∑ c ∈ Finset.range P.n, P.jac x r c * η.getD c 0) ^ 2) + lam * squares η) := by
  have h1 : squares (add δ η) = squares δ + 2 * (∑ c ∈ Finset.range P.n, η.getD c 0 * δ.getD c 0) + squares η := by
    rw [squares_eq_sum, squares_eq_sum, squares_eq_sum, add_length hδ hη, hδ, hη, Finset.mul_sum, ← Finset.sum_add_distrib, ← Finset.sum_add_distrib]
    refine Finset.sum_congr rfl fun c _ => ?_
    rw [add_getD hδ hη]
    ring
  have h2 : P.model x (add δ η) = P.model x δ +
      2 * (∑ r ∈ Finset.range P.m, (∑ c ∈ Finset.range P.n, P.jac x r c * η.getD c 0) * ((∑ c' ∈ Finset.range P.n, P.jac x r c' * δ.getD c' 0) + (P.res x).getD r 0)) +
      ∑ r ∈ Finset.range P.m, (∑ c ∈ Finset.range P.n, P.jac x r c * η.getD c 0) ^ 2 := by
    rw [model, model, Finset.mul_sum, ← Finset.sum_add_distrib, ← Finset.sum_add_distrib]
    refine Finset.sum_congr rfl fun r _ => ?_
    have h3 : ∑ c ∈ Finset.range P.n, P.jac x r c * (add δ η).getD c 0 = ∑ c ∈ Finset.range P.n, P.jac x r c * δ.getD c 0 + ∑ c ∈ Finset.range P.n, P.jac x r c * η.getD c 0 := by
      rw [← Finset.sum_add_distrib]
      exact Finset.sum_congr rfl fun c _ => by rw [add_getD hδ hη, mul_add]
    rw [h3]
    ring
  have h4 : ∑ c ∈ Finset.range P.n, η.getD c 0 *
        ((∑ r ∈ Finset.range P.m, P.jac x r c * ((∑ c' ∈ Finset.range P.n, P.jac x r c' * δ.getD c' 0) + (P.res x).getD r 0)) + lam * δ.getD c 0) =
      (∑ r ∈ Finset.range P.m, (∑ c ∈ Finset.range P.n, P.jac x r c * η.getD c 0) * ((∑ c' ∈ Finset.range P.n, P.jac x r c' * δ.getD c' 0) + (P.res x).getD r 0)) +
        lam * ∑ c ∈ Finset.range P.n, η.getD c 0 * δ.getD c 0 := by
    simp only [mul_add, Finset.sum_add_distrib, Finset.sum_mul]
    rw [Finset.mul_sum]
    refine congrArg₂ (· + ·) (congrArg₂ (· + ·) ?_ ?_) (Finset.sum_congr rfl fun c _ => by ring)
    · rw [Finset.sum_congr rfl fun c _ => Finset.mul_sum _ _ _, Finset.sum_comm]
      exact Finset.sum_congr rfl fun r _ => Finset.sum_congr rfl fun c _ => by ring
    · rw [Finset.sum_congr rfl fun c _ => Finset.mul_sum _ _ _, Finset.sum_comm]
      exact Finset.sum_congr rfl fun r _ => Finset.sum_congr rfl fun c _ => by ring
  rw [h1, h2, h4]
  ring

theorem squares_nonneg (v : List ℝ) : 0 ≤ squares v := by
  rw [squares_eq_sum]
  exact Finset.sum_nonneg fun _ _ => sq_nonneg _

/-- A damped step is what minimises the linear model plus the damping. -/
theorem isStep_iff_minimises (P : Fitting) {x δ : List ℝ} {lam : ℝ} (hl : 0 ≤ lam) :
    P.IsStep x lam δ ↔ δ.length = P.n ∧ ∀ δ', δ'.length = P.n → P.model x δ + lam * squares δ ≤ P.model x δ' + lam * squares δ' := by
  constructor
  · rintro ⟨hδ, h⟩
    refine ⟨hδ, fun δ' hδ' => ?_⟩
    have hη : (List.zipWith (· - ·) δ' δ).length = P.n := by simp [hδ, hδ']
    have h1 : add δ (List.zipWith (· - ·) δ' δ) = δ' := by
      refine List.ext_getElem (by simp [add, hδ, hδ']) fun i h1 h2 => ?_
      simp [add]
    have h2 := P.model_add (x := x) hδ hη lam
    rw [h1] at h2
    rw [Finset.sum_eq_zero fun c hc => by rw [h c (Finset.mem_range.1 hc), mul_zero]] at h2
    have h3 : 0 ≤ ∑ r ∈ Finset.range P.m, (∑ c ∈ Finset.range P.n, P.jac x r c * (List.zipWith (· - ·) δ' δ).getD c 0) ^ 2 := Finset.sum_nonneg fun _ _ => sq_nonneg _
    have h4 := mul_nonneg hl (squares_nonneg (List.zipWith (· - ·) δ' δ))
    linarith
  · rintro ⟨hδ, h⟩
    refine ⟨hδ, fun c hc => ?_⟩
    set g := (∑ r ∈ Finset.range P.m, P.jac x r c * ((∑ c' ∈ Finset.range P.n, P.jac x r c' * δ.getD c' 0) + (P.res x).getD r 0)) + lam * δ.getD c 0 with hg
    set q := (∑ r ∈ Finset.range P.m, (P.jac x r c) ^ 2) + lam with hq
    have hq0 : 0 ≤ q := add_nonneg (Finset.sum_nonneg fun _ _ => sq_nonneg _) hl
    have key : ∀ t : ℝ, 0 ≤ 2 * (t * g) + t ^ 2 * q := by
      intro t
      set η := (List.replicate P.n (0 : ℝ)).set c t with hη
      have hlen : η.length = P.n := by simp [hη]
      have hget : ∀ c', η.getD c' 0 = if c' = c then t else 0 := by
        intro c'
        rw [hη, List.getD_eq_getElem?_getD, List.getElem?_set, List.getElem?_replicate]
        by_cases hcc : c = c'
        · subst hcc
          simp [hc]
        · rw [if_neg hcc, if_neg (Ne.symm hcc)]
          split <;> rfl
      have h1 := P.model_add (x := x) hδ hlen lam
      have h2 := h (add δ η) (add_length hδ hlen)
      have h3 : squares η = t ^ 2 := by
        rw [squares_eq_sum, hlen]
        rw [Finset.sum_eq_single c (fun c' _ hne => by rw [hget, if_neg hne]; ring) (fun hn => absurd (Finset.mem_range.2 hc) hn), hget, if_pos rfl]
      have h4 : ∀ r, ∑ c' ∈ Finset.range P.n, P.jac x r c' * η.getD c' 0 = P.jac x r c * t := by
        intro r
        rw [Finset.sum_eq_single c (fun c' _ hne => by rw [hget, if_neg hne, mul_zero]) (fun hn => absurd (Finset.mem_range.2 hc) hn), hget, if_pos rfl]
      rw [Finset.sum_eq_single c (fun c' _ hne => by rw [hget, if_neg hne, zero_mul]) (fun hn => absurd (Finset.mem_range.2 hc) hn), hget, if_pos rfl, h3, ← hg] at h1
      simp only [h4] at h1
      have h5 : ∑ r ∈ Finset.range P.m, (P.jac x r c * t) ^ 2 = t ^ 2 * ∑ r ∈ Finset.range P.m, (P.jac x r c) ^ 2 := by
        rw [Finset.mul_sum]
        exact Finset.sum_congr rfl fun r _ => by ring
      rw [h5] at h1
      rw [hq]
      nlinarith
    by_contra hne
    have hpos : 0 < q + 1 := by linarith
    have h1 := key (-g / (q + 1))
    have h2 : 2 * (-g / (q + 1) * g) + (-g / (q + 1)) ^ 2 * q = -(g ^ 2 * (q + 2) / (q + 1) ^ 2) := by
      field_simp
      ring
    rw [h2] at h1
    have h3 : 0 < g ^ 2 * (q + 2) / (q + 1) ^ 2 := by positivity
    linarith

/-- `T` carries the problem `P` to the problem `P'`: it is a bijection that keeps sums, lengths, the cost and the linear model. -/
structure Carries (P P' : Fitting) (T : List ℝ → List ℝ) : Prop where
  length : ∀ x, x.length = P.n → (T x).length = P'.n
  surjective : ∀ y, y.length = P'.n → ∃ x, x.length = P.n ∧ T x = y
  add : ∀ x δ, x.length = P.n → δ.length = P.n → Fitting.add (T x) (T δ) = T (Fitting.add x δ)
  squares : ∀ x, x.length = P.n → squares (T x) = squares x
  cost : ∀ x, x.length = P.n → P'.cost (T x) = P.cost x
  model : ∀ x δ, x.length = P.n → δ.length = P.n → P'.model (T x) (T δ) = P.model x δ

variable {P P' : Fitting} {T : List ℝ → List ℝ} (hT : P.Carries P' T)
include hT

theorem Carries.isStep {x δ : List ℝ} {lam : ℝ} (hl : 0 ≤ lam) (hx : x.length = P.n) (h : P.IsStep x lam δ) : P'.IsStep (T x) lam (T δ) := by
  rw [isStep_iff_minimises _ hl] at h ⊢
  refine ⟨hT.length _ h.1, fun y hy => ?_⟩
  obtain ⟨δ', h1, rfl⟩ := hT.surjective y hy
  rw [hT.model x δ hx h.1, hT.model x δ' hx h1, hT.squares _ h.1, hT.squares _ h1]
  exact h.2 δ' h1

theorem Carries.search {x δ : List ℝ} {lam μ : ℝ} (hl : 0 ≤ lam) (hx : x.length = P.n) (h : P.Search x lam μ δ) : P'.Search (T x) lam μ (T δ) := by
  induction h with
  | found h1 h2 =>
    refine .found (hT.isStep hl hx h1) ?_
    rw [hT.squares _ h1.1, hT.add _ _ hx h1.1, hT.cost _ (add_length hx h1.1), hT.cost _ hx]
    exact h2
  | doubled h1 h2 h3 _ ih =>
    refine .doubled (hT.isStep hl hx h1) ?_ ?_ (ih (by linarith))
    · rw [hT.squares _ h1.1]; exact h2
    · rw [hT.add _ _ hx h1.1, hT.cost _ (add_length hx h1.1), hT.cost _ hx]; exact h3

/-- Runs of the method are carried to runs of the method. -/
theorem Carries.run {k : Nat} {x z : List ℝ} {lam : ℝ} (hl : 0 ≤ lam) (hx : x.length = P.n) (h : P.Run k x lam z) : P'.Run k (T x) lam (T z) := by
  induction h with
  | spent => exact .spent
  | solved h1 => exact .solved (by rw [hT.cost _ hx]; exact h1)
  | tiny h1 h2 h3 =>
    exact .tiny (by rw [hT.cost _ hx]; exact h1) (hT.search hl hx h2) (by rw [hT.squares _ h2.step.1.1]; exact h3)
  | stalled h1 h2 h3 h4 =>
    have hδ := h2.step.1.1
    rw [← hT.add _ _ hx hδ]
    refine .stalled (by rw [hT.cost _ hx]; exact h1) (hT.search hl hx h2) (by rw [hT.squares _ hδ]; exact h3) ?_
    rw [hT.add _ _ hx hδ, hT.cost _ hx, hT.cost _ (add_length hx hδ)]
    exact h4
  | step h1 h2 h3 h4 _ ih =>
    have hδ := h2.step.1.1
    refine .step (by rw [hT.cost _ hx]; exact h1) (hT.search hl hx h2) (by rw [hT.squares _ hδ]; exact h3) ?_ ?_
    · rw [hT.add _ _ hx hδ, hT.cost _ hx, hT.cost _ (add_length hx hδ)]
      exact h4
    · rw [hT.add _ _ hx hδ]
      exact ih (le_max_of_le_right (by positivity)) (add_length hx hδ)

end Fiksi.Spec.Fitting
