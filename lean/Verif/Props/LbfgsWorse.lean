import Verif.Props.LbfgsMachine
/-!
# C68: L-BFGS and the sum of squares
-/
namespace Fiksi

open Spec FloatOps Matrix
open Spec.HagerZhang (Good Bisect Update Outcome Try DoubleSecant Search Step)

/-! ## The directions lead downwards -/

/-- A correction of a step that made the slope flatter, or of no step at all. -/
def Spec.Pair.Curved {n : Nat} (c : Pair n) : Prop := 0 ≤ c.rho ∧ (0 < c.y ⬝ᵥ c.y → 0 < c.s ⬝ᵥ c.y)

theorem dot_self_zero {n : Nat} {v : Fin n → ℝ} (h : v ⬝ᵥ v = 0) : v = 0 := by
  funext i
  have := (Finset.sum_eq_zero_iff_of_nonneg (fun i _ => mul_self_nonneg (v i))).1 h i (Finset.mem_univ i)
  exact mul_self_eq_zero.1 this

/-- The matrix is positive definite. -/
def Positive {n : Nat} (H : Matrix (Fin n) (Fin n) ℝ) : Prop := ∀ v : Fin n → ℝ, v ≠ 0 → 0 < v ⬝ᵥ H *ᵥ v

theorem bfgsUpdate_quad {n : Nat} (H : Matrix (Fin n) (Fin n) ℝ) (c : Pair n) (v : Fin n → ℝ) :
    v ⬝ᵥ (bfgsUpdate H c) *ᵥ v = (v - (c.rho * (c.s ⬝ᵥ v)) • c.y) ⬝ᵥ H *ᵥ (v - (c.rho * (c.s ⬝ᵥ v)) • c.y) + c.rho * (c.s ⬝ᵥ v) ^ 2 := by
  rw [bfgsUpdate_mulVec, dotProduct_add, dotProduct_smul, sub_dotProduct, smul_dotProduct, dotProduct_comm v c.s]
  simp only [smul_eq_mul]
  ring

theorem bfgsUpdate_positive {n : Nat} {H : Matrix (Fin n) (Fin n) ℝ} (hH : Positive H) {c : Pair n} (hc : 0 ≤ c.rho) : Positive (bfgsUpdate H c) := by
  intro v hv
  rw [bfgsUpdate_quad]
  by_cases hw : v - (c.rho * (c.s ⬝ᵥ v)) • c.y = 0
  · rw [hw]
    have h1 : c.rho * (c.s ⬝ᵥ v) ≠ 0 := by
      intro h
      rw [h, zero_smul, sub_zero] at hw
      exact hv hw
    have h2 : 0 < c.rho := lt_of_le_of_ne hc (fun h => h1 (by rw [← h, zero_mul]))
    have h3 : c.s ⬝ᵥ v ≠ 0 := fun h => h1 (by rw [h, mul_zero])
    rw [mulVec_zero, dotProduct_zero, zero_add]
    positivity
  · have := hH _ hw
    have h2 : 0 ≤ c.rho * (c.s ⬝ᵥ v) ^ 2 := mul_nonneg hc (sq_nonneg _)
    linarith

theorem bfgsMatrix_positive {n : Nat} {γ : ℝ} (hγ : 0 < γ) : ∀ {cs : List (Pair n)}, (∀ c ∈ cs, 0 ≤ c.rho) → Positive (bfgsMatrix γ cs) := by
  have key : ∀ (cs : List (Pair n)) (H : Matrix (Fin n) (Fin n) ℝ), Positive H → (∀ c ∈ cs, 0 ≤ c.rho) → Positive (cs.foldl bfgsUpdate H) := by
    intro cs
    induction cs with
    | nil => intro H hH _; exact hH
    | cons c cs ih =>
      intro H hH hc
      exact ih _ (bfgsUpdate_positive hH (hc c List.mem_cons_self)) (fun c h => hc c (List.mem_cons_of_mem _ h))
  intro cs hc
  refine key cs _ (fun v hv => ?_) hc
  rw [smul_mulVec, one_mulVec, dotProduct_smul, smul_eq_mul]
  exact mul_pos hγ (lt_of_le_of_ne (Finset.sum_nonneg fun i _ => mul_self_nonneg _) (fun h => hv (dot_self_zero h.symm)))

theorem bfgsScale_pos {n : Nat} {o : Option (Pair n)} (h : ∀ c, o = some c → c.Curved) : 0 < bfgsScale o := by
  cases o with
  | none => simp [bfgsScale]
  | some c =>
    simp only [bfgsScale]
    split
    · rename_i hy
      exact div_pos ((h c rfl).2 hy) hy
    · norm_num

/-- C68: while the corrections come from steps that made the slope flatter, the direction leads downwards wherever the gradient does not vanish. -/
theorem C68_descends {n : Nat} (P : Objective n) {cs : List (Pair n)} (hcs : ∀ c ∈ cs, c.Curved) {x : Fin n → ℝ} (hx : P.grad x ≠ 0) :
    P.grad x ⬝ᵥ P.direction cs x < 0 := by
  rw [Objective.direction, dotProduct_neg, neg_lt_zero]
  refine bfgsMatrix_positive (bfgsScale_pos fun c hc => hcs c (List.mem_of_getLast? hc)) (fun c hc => ?_) _ hx
  rw [Objective.counting] at hc
  split at hc
  · exact (hcs c (List.mem_of_mem_take hc)).1
  · exact (hcs c (List.mem_of_mem_drop hc)).1

/-! ## The sum of squares -/

/-- Steps along lines that lead downwards go forwards, make the slope flatter, and do not increase the objective by more than `ε`. -/
def Spec.Objective.Kind {n : Nat} (P : Objective n) (ε : ℝ) : Prop :=
  ∀ x d t, P.grad x ⬝ᵥ d < 0 → P.IsStep x d t → 0 < t ∧ 9 / 10 * (P.grad x ⬝ᵥ d) ≤ P.grad (x + t • d) ⬝ᵥ d ∧ P.cost (x + t • d) ≤ P.cost x + ε

theorem Spec.Objective.Kind.step {n : Nat} {P : Objective n} {ε : ℝ} (hε : 0 ≤ ε) (hP : P.Kind ε) {cs : List (Pair n)} (hcs : ∀ c ∈ cs, c.Curved) {x : Fin n → ℝ} {t : ℝ}
    (h : P.IsStep x (P.direction cs x) t) :
    P.cost (x + t • P.direction cs x) ≤ P.cost x + ε ∧ (P.correction x (x + t • P.direction cs x)).Curved := by
  by_cases hx : P.grad x = 0
  · have hd : P.direction cs x = 0 := by rw [Objective.direction, hx, mulVec_zero, neg_zero]
    rw [hd, smul_zero, add_zero]
    refine ⟨by linarith, ?_⟩
    simp [Pair.Curved, Objective.correction]
  · have h0 := C68_descends P hcs hx
    obtain ⟨h1, h2, h3⟩ := hP x _ t h0 h
    refine ⟨h3, ?_⟩
    have hs : 0 < (x + t • P.direction cs x - x) ⬝ᵥ (P.grad (x + t • P.direction cs x) - P.grad x) := by
      rw [add_sub_cancel_left, smul_dotProduct, dotProduct_sub, dotProduct_comm _ (P.grad (x + t • P.direction cs x)), dotProduct_comm _ (P.grad x), smul_eq_mul]
      refine mul_pos h1 ?_
      linarith
    exact ⟨(one_div_pos.2 hs).le, fun _ => hs⟩

theorem Spec.Objective.Kind.steps {n : Nat} {P : Objective n} {ε : ℝ} (hε : 0 ≤ ε) (hP : P.Kind ε) {k : Nat} {cs : List (Pair n)} {x z : Fin n → ℝ} (h : P.Steps k cs x z)
    (hcs : ∀ c ∈ cs, c.Curved) : P.cost z ≤ P.cost x + k * ε := by
  induction h with
  | spent => simp
  | @last k cs x t h1 _ =>
    have := (hP.step hε hcs h1).1
    have h2 : (0 : ℝ) ≤ k * ε := by positivity
    push_cast
    linarith
  | @step k cs x z t h1 _ _ ih =>
    obtain ⟨h2, h3⟩ := hP.step hε hcs h1
    have h4 := ih (fun c hc => by
      rcases List.mem_append.1 hc with hc | hc
      · exact hcs c hc
      · rw [List.mem_singleton.1 hc]
        exact h3)
    push_cast
    linarith

/-- C68 (partial): if every line search along a line that leads downwards ends with a step forwards that meets the conditions, L-BFGS increases the sum of squares by at most
`10⁻⁴`: by `10⁻⁶` in each of at most a hundred steps. (Full statement: it does not increase it. False, see `C68_worse`.) -/
theorem C68_good_steps_partial {p : Problem ℝ} {P : Objective p.numVariables} (hp : p.Evaluates P)
    (hgood : ∀ x d t, P.grad x ⬝ᵥ d < 0 → P.IsStep x d t → 0 < t ∧ Good (fun t => P.cost (x + t • d)) (fun t => P.grad (x + t • d) ⬝ᵥ d) t) {x x' : List ℝ}
    (hx : x.length = p.numVariables) {fuel : Nat} (h : lbfgs p fuel x = .ok x') : P.cost (vec p.numVariables x') ≤ P.cost (vec p.numVariables x) + 1 / 10 ^ 4 := by
  have hk : P.Kind (1 / 10 ^ 6) := by
    intro x d t h1 h2
    obtain ⟨h3, h4⟩ := hgood x d t h1 h2
    refine ⟨h3, ?_⟩
    rcases h4 with ⟨h4, h5⟩ | ⟨h4, h5, h6⟩
    · simp only [zero_smul, add_zero] at h4 h5
      refine ⟨h5, h4.trans ?_⟩
      have : t * (1 / 10000 * (P.grad x ⬝ᵥ d)) ≤ 0 := mul_nonpos_of_nonneg_of_nonpos h3.le (by linarith)
      norm_num at this ⊢
      linarith
    · simp only [zero_smul, add_zero] at h4 h6
      exact ⟨h6, h4⟩
  have hm := (C67_lbfgs_is_method hp hx h).2
  generalize vec p.numVariables x' = z at hm
  cases hm with
  | small h1 => norm_num
  | steps h1 h2 =>
    have := hk.steps (by positivity) h2 (by simp)
    norm_num at this ⊢
    linarith

/-! ## Linear residuals -/

/-- The sum of the squares of `A x - b`. -/
noncomputable def Spec.Objective.linear {m n : Nat} (A : Matrix (Fin m) (Fin n) ℝ) (b : Fin m → ℝ) : Objective n :=
  ⟨fun x => (A *ᵥ x - b) ⬝ᵥ (A *ᵥ x - b), fun x => Aᵀ *ᵥ (A *ᵥ x - b)⟩

theorem quadratic_good {B A C : ℝ} (hB : B < 0) (hA : 0 < A) : Good (fun t => C + 2 * B * t + A * t ^ 2) (fun t => B + A * t) (-B / A) := by
  refine .inl ⟨?_, ?_⟩
  · have h1 : -B / A * A = -B := div_mul_cancel₀ _ hA.ne'
    have h2 : 0 < -B / A := div_pos (by linarith) hA
    show C + 2 * B * (-B / A) + A * (-B / A) ^ 2 ≤ C + 2 * B * 0 + A * 0 ^ 2 + -B / A * (1 / 10000 * (B + A * 0))
    have h3 : A * (-B / A) ^ 2 = -B * (-B / A) := by rw [sq, ← mul_assoc, mul_comm A, h1]
    rw [h3]
    nlinarith
  · show 9 / 10 * (B + A * 0) ≤ B + A * (-B / A)
    rw [mul_div_cancel₀ _ hA.ne']
    linarith

theorem quadratic_secant {B A : ℝ} (hA : 0 < A) : HagerZhang.secant (fun t => B + A * t) 0 5 = -B / A := by
  rw [HagerZhang.secant, div_eq_div_iff (by linarith) hA.ne']
  ring

theorem quadratic_exists {B A C : ℝ} (hB : B < 0) (hA : 0 < A) : ∃ t, Step (fun t => C + 2 * B * t + A * t ^ 2) (fun t => B + A * t) t := by
  by_cases h1 : Good (fun t => C + 2 * B * t + A * t ^ 2) (fun t => B + A * t) 1
  · exact ⟨1, .one h1⟩
  · refine ⟨-B / A, .search h1 (.found (.good ?_))⟩
    rw [quadratic_secant hA]
    exact .good (quadratic_good hB hA)

theorem quadratic_step {B A C : ℝ} (hB : B < 0) (hA : 0 < A) {t : ℝ} (h : Step (fun t => C + 2 * B * t + A * t ^ 2) (fun t => B + A * t) t) :
    0 < t ∧ 9 / 10 * B ≤ B + A * t ∧ C + 2 * B * t + A * t ^ 2 ≤ C := by
  have hmin := quadratic_good (C := C) hB hA
  have hsec := quadratic_secant (B := B) hA
  have hexact : 0 < -B / A ∧ 9 / 10 * B ≤ B + A * (-B / A) ∧ C + 2 * B * (-B / A) + A * (-B / A) ^ 2 ≤ C := by
    have h1 : -B / A * A = -B := div_mul_cancel₀ _ hA.ne'
    have h2 : 0 < -B / A := div_pos (by linarith) hA
    refine ⟨h2, ?_, ?_⟩
    · rw [mul_div_cancel₀ _ hA.ne']
      linarith
    · have h3 : A * (-B / A) ^ 2 = -B * (-B / A) := by rw [sq, ← mul_assoc, mul_comm A, h1]
      rw [h3]
      nlinarith
  cases h with
  | one hg =>
    rcases hg with ⟨h1, h2⟩ | ⟨h1, h2, h3⟩
    · simp only at h1 h2
      refine ⟨one_pos, by linarith, by linarith⟩
    · simp only at h1 h2 h3
      refine ⟨one_pos, by linarith, by linarith⟩
  | search _ hs =>
    have hds : ∀ o, DoubleSecant (fun t => C + 2 * B * t + A * t ^ 2) (fun t => B + A * t) 0 5 o → o = .step (-B / A) := by
      intro o ho
      have hno : ∀ {a b : ℝ}, ¬ Try (fun t => C + 2 * B * t + A * t ^ 2) (fun t => B + A * t) 0 5 (HagerZhang.secant (fun t => B + A * t) 0 5) (.bracket a b) := by
        intro a b ht
        rw [hsec] at ht
        cases ht with
        | bad h1 _ => exact h1 hmin
      cases ho with
      | good h1 =>
        rw [hsec] at h1
        cases h1 with
        | good => rfl
      | upper h1 => exact absurd h1 hno
      | lower h1 => exact absurd h1 hno
      | neither h1 => exact absurd h1 hno
    cases hs with
    | found h1 =>
      have := hds _ h1
      simp only [Outcome.step.injEq] at this
      rw [this]
      exact hexact
    | shrunk h1 => cases hds _ h1
    | middle h1 => cases hds _ h1
    | halved h1 => cases hds _ h1

/-- Along a line that leads downwards, a linear problem is a parabola. -/
theorem Spec.Objective.linear_line {m n : Nat} (A : Matrix (Fin m) (Fin n) ℝ) (b : Fin m → ℝ) {x d : Fin n → ℝ} (h0 : (Objective.linear A b).grad x ⬝ᵥ d < 0) :
    ∃ Q, 0 < Q ∧ (∀ t : ℝ, (Objective.linear A b).cost (x + t • d) = (Objective.linear A b).cost x + 2 * ((Objective.linear A b).grad x ⬝ᵥ d) * t + Q * t ^ 2) ∧
      ∀ t : ℝ, (Objective.linear A b).grad (x + t • d) ⬝ᵥ d = (Objective.linear A b).grad x ⬝ᵥ d + Q * t := by
  have hgd : ∀ v d, (Objective.linear A b).grad v ⬝ᵥ d = (A *ᵥ v - b) ⬝ᵥ A *ᵥ d := by
    intro v d
    simp only [Objective.linear]
    rw [dotProduct_mulVec, ← mulVec_transpose]
  have hres : ∀ t : ℝ, A *ᵥ (x + t • d) - b = (A *ᵥ x - b) + t • A *ᵥ d := by
    intro t
    rw [mulVec_add, mulVec_smul]
    abel
  refine ⟨A *ᵥ d ⬝ᵥ A *ᵥ d, ?_, ?_, ?_⟩
  · refine lt_of_le_of_ne (Finset.sum_nonneg fun i _ => mul_self_nonneg _) (fun hz => ?_)
    rw [hgd, dot_self_zero hz.symm, dotProduct_zero] at h0
    exact lt_irrefl _ h0
  · intro t
    rw [hgd]
    simp only [Objective.linear]
    rw [hres, add_dotProduct, dotProduct_add, dotProduct_add, smul_dotProduct, dotProduct_smul, smul_dotProduct, dotProduct_smul, dotProduct_comm (A *ᵥ d) (A *ᵥ x - b)]
    simp only [smul_eq_mul]
    ring
  · intro t
    rw [hgd, hgd, hres, add_dotProduct, smul_dotProduct, smul_eq_mul, mul_comm]

theorem Spec.Objective.linear_kind {m n : Nat} (A : Matrix (Fin m) (Fin n) ℝ) (b : Fin m → ℝ) : (Objective.linear A b).Kind 0 := by
  intro x d t h0 h
  obtain ⟨Q, hQ, hcost, hgrad⟩ := Objective.linear_line A b h0
  rw [Objective.IsStep] at h
  simp only [hcost, hgrad] at h ⊢
  rw [add_zero]
  exact quadratic_step h0 hQ h

theorem Spec.Objective.linear_step {m n : Nat} (A : Matrix (Fin m) (Fin n) ℝ) (b : Fin m → ℝ) {cs : List (Pair n)} (hcs : ∀ c ∈ cs, c.Curved) (x : Fin n → ℝ) :
    ∃ t, (Objective.linear A b).IsStep x ((Objective.linear A b).direction cs x) t := by
  by_cases hx : (Objective.linear A b).grad x = 0
  · have hd : (Objective.linear A b).direction cs x = 0 := by rw [Objective.direction, hx, mulVec_zero, neg_zero]
    rw [hd]
    exact ⟨1, .one (.inl ⟨by simp, by simp⟩)⟩
  · obtain ⟨Q, hQ, hcost, hgrad⟩ := Objective.linear_line A b (C68_descends _ hcs hx)
    simp only [Objective.IsStep, hcost, hgrad]
    exact quadratic_exists (C68_descends _ hcs hx) hQ

theorem Spec.Objective.linear_steps {m n : Nat} (A : Matrix (Fin m) (Fin n) ℝ) (b : Fin m → ℝ) : ∀ (k : Nat) (cs : List (Pair n)) (x : Fin n → ℝ), (∀ c ∈ cs, c.Curved) →
    ∃ z, (Objective.linear A b).Steps k cs x z := by
  intro k
  induction k with
  | zero => exact fun cs x _ => ⟨x, .spent⟩
  | succ k ih =>
    intro cs x hcs
    obtain ⟨t, ht⟩ := Objective.linear_step A b hcs x
    by_cases he : (Objective.linear A b).Ends x (x + t • (Objective.linear A b).direction cs x)
    · exact ⟨_, .last ht he⟩
    · obtain ⟨z, hz⟩ := ih (cs ++ [(Objective.linear A b).correction x (x + t • (Objective.linear A b).direction cs x)]) (x + t • (Objective.linear A b).direction cs x) (fun c hc => by
        rcases List.mem_append.1 hc with hc | hc
        · exact hcs c hc
        · rw [List.mem_singleton.1 hc]
          exact ((Objective.linear_kind A b).step le_rfl hcs ht).2)
      exact ⟨z, .step ht he hz⟩

/-- C68 (partial): for linear residuals L-BFGS returns, and does not increase the sum of squares. -/
theorem C68_linear_partial {p : Problem ℝ} {m : Nat} (A : Matrix (Fin m) (Fin p.numVariables) ℝ) (b : Fin m → ℝ) (hp : p.Evaluates (Objective.linear A b)) {x : List ℝ}
    (hx : x.length = p.numVariables) : ∃ k x', (∀ fuel, k ≤ fuel → lbfgs p fuel x = .ok x') ∧ x'.length = p.numVariables ∧
      (Objective.linear A b).cost (vec p.numVariables x') ≤ (Objective.linear A b).cost (vec p.numVariables x) := by
  obtain ⟨z, hz⟩ : ∃ z, (Objective.linear A b).Lbfgs (vec p.numVariables x) z := by
    by_cases hs : (Objective.linear A b).cost (vec p.numVariables x) < 1 / 10 ^ 4
    · exact ⟨_, .small hs⟩
    · obtain ⟨z, hz⟩ := Objective.linear_steps A b 100 [] (vec p.numVariables x) (by simp)
      exact ⟨z, .steps (le_of_not_gt hs) hz⟩
  obtain ⟨k, hk⟩ := C67_method_is_lbfgs hp hx hz
  refine ⟨k, List.ofFn z, hk, by simp, ?_⟩
  rw [vec_ofFn]
  cases hz with
  | small h1 => exact le_rfl
  | steps h1 h2 => simpa using (Objective.linear_kind A b).steps le_rfl h2 (by simp)

/-- The residuals of `bowl` are linear. -/
theorem bowl_evaluates : bowl.Evaluates (Objective.linear (!![1, 0; 0, 1 / 2] : Matrix (Fin 2) (Fin 2) ℝ) 0) := by
  refine ⟨bowl_denseOk, ?_⟩
  intro u rs jac hu _ _ _
  match u, hu with
  | [a, b], _ =>
    refine ⟨_, _, rfl, rfl, rfl, rfl, ?_, ?_⟩
    · show ∑ c ∈ Finset.range 2, ([a, b * (1 / 2)] : List ℝ).getD c 0 ^ 2 = (Objective.linear (!![1, 0; 0, 1 / 2] : Matrix (Fin 2) (Fin 2) ℝ) 0).cost (vec 2 [a, b])
      simp [Finset.sum_range_succ, Objective.linear, dotProduct, mulVec, Fin.sum_univ_two, vec]
      ring
    · show ∀ k : Fin 2, ∑ c ∈ Finset.range 2, ([1, 0, 0, 1 / 2] : List ℝ).getD (c * 2 + k) 0 * ([a, b * (1 / 2)] : List ℝ).getD c 0 =
        (Objective.linear (!![1, 0; 0, 1 / 2] : Matrix (Fin 2) (Fin 2) ℝ) 0).grad (vec 2 [a, b]) k
      intro k
      fin_cases k <;> simp [Finset.sum_range_succ, Objective.linear, dotProduct, mulVec, Fin.sum_univ_two, vec] <;> ring

/-- The hypotheses of `C68_linear_partial` are met by the residuals `x` and `y / 2`; the start `(1, 1)` is not at rest. -/
example : ∃ k x', (∀ fuel, k ≤ fuel → lbfgs bowl fuel [1, 1] = .ok x') ∧ (Objective.linear (!![1, 0; 0, 1 / 2] : Matrix (Fin 2) (Fin 2) ℝ) 0).cost (vec 2 x') ≤ 5 / 4 := by
  obtain ⟨k, x', h, -, h2⟩ := C68_linear_partial _ _ bowl_evaluates (x := [1, 1]) rfl
  refine ⟨k, x', h, h2.trans (le_of_eq ?_)⟩
  show (Objective.linear (!![1, 0; 0, 1 / 2] : Matrix (Fin 2) (Fin 2) ℝ) 0).cost (vec 2 [1, 1]) = 5 / 4
  simp [Objective.linear, dotProduct, mulVec, Fin.sum_univ_two, vec]
  norm_num

/-- The hypothesis of `C68_good_steps_partial` is met by linear residuals. -/
example (x d : Fin 2 → ℝ) (t : ℝ) (h0 : (Objective.linear (!![1, 0; 0, 1 / 2] : Matrix (Fin 2) (Fin 2) ℝ) 0).grad x ⬝ᵥ d < 0)
    (h : (Objective.linear (!![1, 0; 0, 1 / 2] : Matrix (Fin 2) (Fin 2) ℝ) 0).IsStep x d t) :
    0 < t ∧ 9 / 10 * ((Objective.linear (!![1, 0; 0, 1 / 2] : Matrix (Fin 2) (Fin 2) ℝ) 0).grad x ⬝ᵥ d) ≤
      (Objective.linear (!![1, 0; 0, 1 / 2] : Matrix (Fin 2) (Fin 2) ℝ) 0).grad (x + t • d) ⬝ᵥ d :=
  ⟨(Objective.linear_kind _ _ x d t h0 h).1, (Objective.linear_kind _ _ x d t h0 h).2.1⟩

/-! ## A step backwards -/

/-- A residual in one variable. At 0 it is 1 and falls; at 1 it is 3; at 5 it is 1 again and falls a little faster than at 0; at -500000 it is 7 and level. -/
noncomputable def ditchAt (x : ℝ) : ℝ :=
  1 - x + 139848004730809520406186875425007000009 / 31251062513250072500162500125000000000 * x ^ 2
    - 1414959305550274557620281269375248611158333 / 868085069812502013893402781250000000000000 * x ^ 3
    + 6054623041657756699895454264533609360874979 / 39063828141562590625203125156250000000000000 * x ^ 4
    + 13455142361249970701186979234030858337 / 21702126745312550347335069531250000000000000 * x ^ 5
    + 121097554728609541406034372274997 / 195319140707812953126015625781250000000000000 * x ^ 6

/-- Its derivative. -/
noncomputable def ditchSlope (x : ℝ) : ℝ :=
  -1 + 139848004730809520406186875425007000009 / 31251062513250072500162500125000000000 * (2 * x)
    - 1414959305550274557620281269375248611158333 / 868085069812502013893402781250000000000000 * (3 * x ^ 2)
    + 6054623041657756699895454264533609360874979 / 39063828141562590625203125156250000000000000 * (4 * x ^ 3)
    + 13455142361249970701186979234030858337 / 21702126745312550347335069531250000000000000 * (5 * x ^ 4)
    + 121097554728609541406034372274997 / 195319140707812953126015625781250000000000000 * (6 * x ^ 5)

theorem ditch_hasDerivAt (x : ℝ) : HasDerivAt ditchAt (ditchSlope x) x := by
  have hp : ∀ (n : Nat) (c : ℝ), HasDerivAt (fun x : ℝ => c * x ^ n) (c * (n * x ^ (n - 1))) x := fun n c => (hasDerivAt_pow n x).const_mul c
  have h1 : HasDerivAt (fun x : ℝ => 1 - x) (-1) x := by simpa using (hasDerivAt_id x).const_sub 1
  have := ((((h1.add (hp 2 (139848004730809520406186875425007000009 / 31251062513250072500162500125000000000))).sub
    (hp 3 (1414959305550274557620281269375248611158333 / 868085069812502013893402781250000000000000))).add
    (hp 4 (6054623041657756699895454264533609360874979 / 39063828141562590625203125156250000000000000))).add
    (hp 5 (13455142361249970701186979234030858337 / 21702126745312550347335069531250000000000000))).add
    (hp 6 (121097554728609541406034372274997 / 195319140707812953126015625781250000000000000))
  refine this.congr_deriv ?_
  simp [ditchSlope]

/-- The problem with the one residual `ditchAt`. -/
noncomputable def ditch : Problem ℝ where
  numVariables := 1
  numResiduals := 1
  residuals := fun
    | [x] => .ok [ditchAt x]
    | _ => .error .indexOutOfBounds
  denseJacobian := fun v _ _ => match v with
    | [x] => .ok ([ditchAt x], [ditchSlope x])
    | _ => .error .indexOutOfBounds
  sparseJacobian := fun v _ _ => match v with
    | [x] => .ok ([ditchAt x], [(0, 0, ditchSlope x)])
    | _ => .error .indexOutOfBounds

noncomputable def ditchObjective : Objective 1 := ⟨fun v => ditchAt (v 0) ^ 2, fun v _ => ditchSlope (v 0) * ditchAt (v 0)⟩

theorem ditch_evaluates : ditch.Evaluates ditchObjective := by
  refine ⟨?_, ?_⟩
  · intro x rs jac hx _ _
    match x, hx with
    | [a], _ => exact ⟨_, _, rfl, rfl, rfl, rfl⟩
  · intro u rs jac hu _ _ _
    match u, hu with
    | [a], _ =>
      refine ⟨_, _, rfl, rfl, rfl, rfl, ?_, ?_⟩
      · show ∑ c ∈ Finset.range 1, ([ditchAt a] : List ℝ).getD c 0 ^ 2 = _
        simp [ditchObjective, vec]
      · show ∀ k : Fin 1, ∑ c ∈ Finset.range 1, ([ditchSlope a] : List ℝ).getD (c * 1 + k) 0 * ([ditchAt a] : List ℝ).getD c 0 = _
        intro k
        fin_cases k
        simp [ditchObjective, vec]

theorem ditch_zero : ditchAt 0 = 1 ∧ ditchSlope 0 = -1 := by
  constructor <;> norm_num [ditchAt, ditchSlope]

theorem ditch_one : ditchAt 1 = 3 := by norm_num [ditchAt]

theorem ditch_five : ditchAt 5 = 1 ∧ ditchSlope 5 = -100001 / 100000 := by
  constructor <;> norm_num [ditchAt, ditchSlope]

theorem ditch_far : ditchAt (-500000) = 7 ∧ ditchSlope (-500000) = 0 := by
  constructor <;> norm_num [ditchAt, ditchSlope]

theorem ditch_direction : ditchObjective.direction [] ![0] = ![1] := by
  ext i
  fin_cases i
  simp [Objective.direction, Objective.counting, bfgsMatrix, bfgsScale, ditchObjective, ditch_zero.1, ditch_zero.2, mulVec, dotProduct]

theorem ditch_step : ditchObjective.IsStep ![0] ![1] (-500000) := by
  have hφ : (fun t : ℝ => ditchObjective.cost (![0] + t • ![1])) = fun t => ditchAt t ^ 2 := by
    funext t
    simp [ditchObjective]
  have hψ : (fun t : ℝ => ditchObjective.grad (![0] + t • ![1]) ⬝ᵥ ![1]) = fun t => ditchSlope t * ditchAt t := by
    funext t
    simp [ditchObjective, dotProduct]
  rw [Objective.IsStep, hφ, hψ]
  have hs : HagerZhang.secant (fun t => ditchSlope t * ditchAt t) 0 5 = -500000 := by
    simp only [HagerZhang.secant]
    rw [ditch_zero.1, ditch_zero.2, ditch_five.1, ditch_five.2]
    norm_num
  refine .search ?_ (.found (.good (hs.symm ▸ .good (.inl ⟨?_, ?_⟩))))
  · rintro (⟨h, -⟩ | ⟨h, -, -⟩)
    · simp only at h
      rw [ditch_zero.1, ditch_zero.2, ditch_one] at h
      norm_num at h
    · simp only at h
      rw [ditch_zero.1, ditch_one] at h
      norm_num at h
  · simp only
    rw [ditch_zero.1, ditch_zero.2, ditch_far.1]
    norm_num
  · simp only
    rw [ditch_zero.1, ditch_zero.2, ditch_far.1, ditch_far.2]
    norm_num

theorem ditch_lbfgs : ditchObjective.Lbfgs ![0] ![-500000] := by
  have h0 : ditchObjective.cost ![0] = 1 := by simp [ditchObjective, ditch_zero.1]
  have h1 : ditchObjective.cost ![-500000] = 49 := by
    simp only [ditchObjective, cons_val_zero]
    rw [ditch_far.1]
    norm_num
  have hmove : (![0] : Fin 1 → ℝ) + (-500000 : ℝ) • ![1] = ![-500000] := by
    ext i
    fin_cases i
    simp
  refine .steps (by rw [h0]; norm_num) ?_
  refine .step (t := -500000) (by rw [ditch_direction]; exact ditch_step) ?_ ?_
  · rw [ditch_direction, hmove, Objective.Ends, h0, h1]
    norm_num
  rw [ditch_direction, hmove]
  generalize ([] ++ [ditchObjective.correction ![0] ![-500000]]) = cs
  have hd : ditchObjective.direction cs ![-500000] = 0 := by
    have : ditchObjective.grad ![-500000] = 0 := by
      ext i
      simp only [ditchObjective, cons_val_zero]
      rw [ditch_far.2, zero_mul]
      rfl
    rw [Objective.direction, this, mulVec_zero, neg_zero]
  have hl : ditchObjective.Steps 99 cs ![-500000] (![-500000] + (1 : ℝ) • ditchObjective.direction cs ![-500000]) := by
    refine .last ?_ ?_
    · rw [hd, Objective.IsStep]
      refine .one (.inl ⟨?_, ?_⟩) <;> simp
    · rw [hd, Objective.Ends]
      left
      simp
  rwa [hd, smul_zero, add_zero] at hl

/-- C68: L-BFGS may make things worse. The residual is differentiable everywhere and the problem supplies its derivative, yet from 0, where the sum of squares is 1, L-BFGS ends at
-500000, where it is 49: the secant step goes backwards, and the Wolfe conditions, meant for steps forwards, then permit the increase. -/
theorem C68_worse : (∀ x, HasDerivAt ditchAt (ditchSlope x) x) ∧ ditch.Evaluates ditchObjective ∧
    (∃ k, ∀ fuel, k ≤ fuel → lbfgs ditch fuel [0] = .ok [-500000]) ∧ ditchAt 0 ^ 2 = 1 ∧ ditchAt (-500000) ^ 2 = 49 := by
  refine ⟨ditch_hasDerivAt, ditch_evaluates, ?_, by rw [ditch_zero.1]; norm_num, by rw [ditch_far.1]; norm_num⟩
  have hv : vec ditch.numVariables [0] = (![0] : Fin 1 → ℝ) := by
    show vec 1 [0] = _
    ext i
    fin_cases i
    rfl
  have := C67_method_is_lbfgs ditch_evaluates (x := [0]) rfl (by rw [hv]; exact ditch_lbfgs)
  simpa [ditch] using this

end Fiksi
