import Verif.Model.Qr
import Verif.Proofs.BackSubst
import Verif.Proofs.RowAssign
import Mathlib.Algebra.BigOperators.Ring.Finset
import Mathlib.Tactic.LinearCombination
import Mathlib.Tactic.Positivity
/-!
# Householder reflectors
-/
namespace Fiksi

open Spec

/-- The reflector `I - β v v^T` on vectors with `m` entries. -/
noncomputable def reflect (m : Nat) (β : ℝ) (v x : Nat → ℝ) (t : Nat) : ℝ := x t - v t * ((∑ s ∈ Finset.range m, v s * x s) * β)

/-- The reflector is orthogonal. -/
def Orthogonal (m : Nat) (β : ℝ) (v : Nat → ℝ) : Prop := β * (β * (∑ s ∈ Finset.range m, v s * v s) - 2) = 0

theorem reflect_inner {m : Nat} {β : ℝ} {v : Nat → ℝ} (h : Orthogonal m β v) (x y : Nat → ℝ) :
    ∑ s ∈ Finset.range m, reflect m β v x s * reflect m β v y s = ∑ s ∈ Finset.range m, x s * y s := by
  unfold Orthogonal at h
  unfold reflect
  set a := ∑ s ∈ Finset.range m, v s * x s with ha
  set b := ∑ s ∈ Finset.range m, v s * y s with hb
  set c := ∑ s ∈ Finset.range m, v s * v s with hc
  have h1 : ∑ s ∈ Finset.range m, (x s - v s * (a * β)) * (y s - v s * (b * β)) =
      ∑ s ∈ Finset.range m, x s * y s - (b * β) * a - (a * β) * b + (a * β) * (b * β) * c := by
    rw [ha, hb, hc]
    simp only [Finset.mul_sum]
    rw [← Finset.sum_sub_distrib, ← Finset.sum_sub_distrib, ← Finset.sum_add_distrib]
    rw [← ha, ← hb]
    refine Finset.sum_congr rfl (fun s _ => by ring)
  rw [h1]
  linear_combination (a * b) * h

theorem reflect_add {m : Nat} {β : ℝ} {v : Nat → ℝ} (x y : Nat → ℝ) :
    reflect m β v (fun t => x t + y t) = fun t => reflect m β v x t + reflect m β v y t := by
  funext t
  unfold reflect
  have : ∑ s ∈ Finset.range m, v s * (x s + y s) = ∑ s ∈ Finset.range m, v s * x s + ∑ s ∈ Finset.range m, v s * y s := by
    rw [← Finset.sum_add_distrib]
    exact Finset.sum_congr rfl (fun s _ => by ring)
  rw [this]
  ring

theorem reflect_smul {m : Nat} {β : ℝ} {v : Nat → ℝ} (c : ℝ) (x : Nat → ℝ) :
    reflect m β v (fun t => c * x t) = fun t => c * reflect m β v x t := by
  funext t
  unfold reflect
  have : ∑ s ∈ Finset.range m, v s * (c * x s) = c * ∑ s ∈ Finset.range m, v s * x s := by
    rw [Finset.mul_sum]
    exact Finset.sum_congr rfl (fun s _ => by ring)
  rw [this]
  ring

theorem reflect_disjoint {m : Nat} {β : ℝ} {v x : Nat → ℝ} (h : ∀ s, s < m → v s = 0 ∨ x s = 0) : reflect m β v x = x := by
  funext t
  unfold reflect
  rw [Finset.sum_eq_zero (fun s hs => by
    rcases h s (Finset.mem_range.1 hs) with h | h <;> simp [h])]
  simp

theorem reflect_congr {m : Nat} {β : ℝ} {v x y : Nat → ℝ} (h : ∀ s, s < m → x s = y s) (t : Nat) (ht : t < m) :
    reflect m β v x t = reflect m β v y t := by
  unfold reflect
  rw [Finset.sum_congr rfl (fun s hs => by rw [h s (Finset.mem_range.1 hs)]), h t ht]

/-- The vector with the given values at the given rows. -/
noncomputable def sparseAt (rows : List Nat) (values : List ℝ) (t : Nat) : ℝ :=
  ((rows.zip values).map (fun p => if p.1 = t then p.2 else 0)).sum

theorem sparseAt_nil (values : List ℝ) (t : Nat) : sparseAt [] values t = 0 := by simp [sparseAt]

theorem sparseAt_cons (r : Nat) (rows : List Nat) (v : ℝ) (values : List ℝ) (t : Nat) :
    sparseAt (r :: rows) (v :: values) t = (if r = t then v else 0) + sparseAt rows values t := by simp [sparseAt]

theorem sparseAt_eq_zero {rows : List Nat} {values : List ℝ} {t : Nat} (h : t ∉ rows) : sparseAt rows values t = 0 := by
  induction rows generalizing values with
  | nil => exact sparseAt_nil _ _
  | cons r rows ih =>
    cases values with
    | nil => simp [sparseAt]
    | cons v values =>
      rw [sparseAt_cons, ih (fun hh => h (List.mem_cons_of_mem _ hh)), if_neg (by rintro rfl; exact h List.mem_cons_self), add_zero]

theorem sparseAt_getElem {rows : List Nat} (hn : rows.Nodup) {values : List ℝ} {i r : Nat} {v : ℝ} (hr : rows[i]? = some r)
    (hv : values[i]? = some v) : sparseAt rows values r = v := by
  induction rows generalizing values i with
  | nil => simp at hr
  | cons r' rows ih =>
    obtain ⟨h1, h2⟩ := List.nodup_cons.1 hn
    cases values with
    | nil => simp at hv
    | cons v' values =>
      rw [sparseAt_cons]
      cases i with
      | zero =>
        simp only [List.getElem?_cons_zero, Option.some.injEq] at hr hv
        subst hr hv
        rw [if_pos rfl, sparseAt_eq_zero h1, add_zero]
      | succ i =>
        simp only [List.getElem?_cons_succ] at hr hv
        rw [ih h2 hr hv, if_neg (by rintro rfl; exact h1 (List.mem_of_getElem? hr)), zero_add]

theorem sparseAt_sum {rows : List Nat} {values : List ℝ} {m : Nat} (h : ∀ r ∈ rows, r < m) (x : Nat → ℝ) :
    ∑ s ∈ Finset.range m, sparseAt rows values s * x s = ((rows.zip values).map (fun p => p.2 * x p.1)).sum := by
  induction rows generalizing values with
  | nil => simp [sparseAt_nil]
  | cons r rows ih =>
    cases values with
    | nil => simp [sparseAt]
    | cons v values =>
      simp only [sparseAt_cons, add_mul, Finset.sum_add_distrib]
      rw [ih (fun r' hr' => h r' (List.mem_cons_of_mem _ hr'))]
      simp only [List.zip_cons_cons, List.map_cons, List.sum_cons]
      congr 1
      simp only [ite_mul, zero_mul]
      rw [Finset.sum_ite_eq, if_pos (Finset.mem_range.2 (h r List.mem_cons_self))]

theorem addTau_foldlM (x values : List ℝ) (rows : List Nat) (k : Nat) (vs : List ℝ) (hvs : ∀ i, i < rows.length → values[k + i]? = vs[i]?)
    (hlen : vs.length = rows.length) (hx : ∀ r ∈ rows, r < x.length) (tau : ℝ) :
    (rows.zipIdx k).foldlM (addTau x values) tau = .ok (tau + ((rows.zip vs).map (fun p => p.2 * x.getD p.1 0)).sum) := by
  induction rows generalizing k vs tau with
  | nil => simp [pure_eq_ok]
  | cons r rows ih =>
    cases vs with
    | nil => simp at hlen
    | cons v vs =>
      have h0 := hvs 0 (by simp)
      simp only [Nat.add_zero, List.getElem?_cons_zero] at h0
      have hr := hx r List.mem_cons_self
      rw [List.zipIdx_cons, List.foldlM_cons, addTau, idx_of h0, ok_bind, idx_of (List.getElem?_eq_getElem hr), ok_bind, pure_eq_ok, ok_bind]
      rw [ih (k + 1) vs (fun i hi => by
        have := hvs (i + 1) (by simp; omega)
        rw [List.getElem?_cons_succ] at this
        rw [← this]; congr 1; omega) (by simpa using hlen) (fun r' hr' => hx r' (List.mem_cons_of_mem _ hr'))]
      simp only [List.zip_cons_cons, List.map_cons, List.sum_cons]
      rw [show x.getD r 0 = x[r] by simp [List.getD_eq_getElem?_getD, hr], add_assoc]

theorem reflectEntry_foldlM (tau : ℝ) (values : List ℝ) (rows : List Nat) (k : Nat) (vs : List ℝ)
    (hvs : ∀ i, i < rows.length → values[k + i]? = vs[i]?) (hlen : vs.length = rows.length) (x : List ℝ) (hx : ∀ r ∈ rows, r < x.length) :
    ∃ y, (rows.zipIdx k).foldlM (reflectEntry tau values) x = .ok y ∧ y.length = x.length ∧
      ∀ t, y.getD t 0 = x.getD t 0 - sparseAt rows vs t * tau := by
  induction rows generalizing k vs x with
  | nil => exact ⟨x, rfl, rfl, by simp [sparseAt_nil]⟩
  | cons r rows ih =>
    cases vs with
    | nil => simp at hlen
    | cons v vs =>
      have h0 := hvs 0 (by simp)
      simp only [Nat.add_zero, List.getElem?_cons_zero] at h0
      have hr := hx r List.mem_cons_self
      rw [List.zipIdx_cons, List.foldlM_cons, reflectEntry, idx_of (List.getElem?_eq_getElem hr), ok_bind, idx_of h0, ok_bind, setIdx_of _ hr,
        ok_bind]
      obtain ⟨y, h1, h2, h3⟩ := ih (k + 1) vs (fun i hi => by
        have := hvs (i + 1) (by simp; omega)
        rw [List.getElem?_cons_succ] at this
        rw [← this]; congr 1; omega) (by simpa using hlen) (x.set r (x[r] - v * tau)) (fun r' hr' => by
          rw [List.length_set]; exact hx r' (List.mem_cons_of_mem _ hr'))
      refine ⟨y, h1, by rw [h2, List.length_set], ?_⟩
      intro t
      rw [h3, sparseAt_cons]
      by_cases ht : r = t
      · subst ht
        rw [if_pos rfl]
        simp only [List.getD_eq_getElem?_getD, List.getElem?_set_self hr, List.getElem?_eq_getElem hr, Option.getD_some]
        ring
      · rw [if_neg ht]
        simp only [List.getD_eq_getElem?_getD, List.getElem?_set_ne ht]
        ring

/-- `apply_householder` is the reflector. -/
theorem applyHouseholder_spec {x : List ℝ} {β : ℝ} {rows : List Nat} {values : List ℝ} (hlen : values.length = rows.length)
    (hx : ∀ r ∈ rows, r < x.length) :
    ∃ y, applyHouseholder x β rows values = .ok y ∧ y.length = x.length ∧
      ∀ t, y.getD t 0 = reflect x.length β (sparseAt rows values) (fun t => x.getD t 0) t := by
  obtain ⟨y, h1, h2, h3⟩ := reflectEntry_foldlM ((0 + ((rows.zip values).map (fun p => p.2 * x.getD p.1 0)).sum) * β) values rows 0 values
    (fun i _ => by rw [Nat.zero_add]) hlen x hx
  refine ⟨y, ?_, h2, ?_⟩
  · rw [applyHouseholder, addTau_foldlM x values rows 0 values (fun i _ => by rw [Nat.zero_add]) hlen hx, ok_bind]
    exact h1
  · intro t
    rw [h3, reflect, sparseAt_sum hx, zero_add]

theorem foldl_squares (l : List ℝ) (s : ℝ) : l.foldl (fun (s : ℝ) value => s + value * value) s = s + (l.map (fun x => x * x)).sum := by
  induction l generalizing s with
  | nil => simp
  | cons a l ih => rw [List.foldl_cons, ih, List.map_cons, List.sum_cons, add_assoc]

theorem sum_squares_nonneg (l : List ℝ) : 0 ≤ (l.map (fun x => x * x)).sum := by
  induction l with
  | nil => simp
  | cons a l ih =>
    rw [List.map_cons, List.sum_cons]
    exact add_nonneg (mul_self_nonneg a) ih

theorem sum_squares_zero {l : List ℝ} (h : (l.map (fun x => x * x)).sum = 0) : ∀ x ∈ l, x = 0 := by
  induction l with
  | nil => simp
  | cons a l ih =>
    rw [List.map_cons, List.sum_cons] at h
    have h1 := sum_squares_nonneg l
    have h2 : 0 ≤ a * a := mul_self_nonneg a
    intro x hx
    rcases List.mem_cons.1 hx with rfl | hx
    · exact mul_self_eq_zero.1 (by linarith)
    · exact ih (by linarith) x hx

/-- The result of `calculate_householder`. -/
theorem calculateHouseholder_spec (v0 : ℝ) (rest : List ℝ) :
    ∃ norm β v', calculateHouseholder (v0 :: rest) = .ok (norm, β, v' :: rest) ∧
      norm = Real.sqrt (v0 * v0 + (rest.map (fun x => x * x)).sum) ∧
      β * (β * (v' * v' + (rest.map (fun x => x * x)).sum) - 2) = 0 ∧
      v0 - v' * ((v' * v0 + (rest.map (fun x => x * x)).sum) * β) = norm ∧
      ∀ x ∈ rest, x - x * ((v' * v0 + (rest.map (fun x => x * x)).sum) * β) = 0 := by
  have hs0 := sum_squares_nonneg rest
  have hz := @sum_squares_zero rest
  rw [calculateHouseholder]
  simp only [foldl_squares, zero_add]
  revert hz hs0
  generalize (rest.map (fun x => x * x)).sum = σ
  intro hs0 hz
  have hv0 : 0 ≤ v0 * v0 := mul_self_nonneg v0
  by_cases hσ : σ = 0
  · have hrest := hz hσ
    subst hσ
    rw [if_pos (by simp [FloatOps.eqB])]
    by_cases h : 0 ≤ v0
    · refine ⟨|v0|, 0, 1, ?_, ?_, by ring, ?_, ?_⟩
      · have : leB (0 : ℝ) v0 = true := by
          simp only [leB, FloatOps.ltB, FloatOps.eqB, Bool.or_eq_true, decide_eq_true_eq]
          exact lt_or_eq_of_le h
        rw [this]
        rfl
      · rw [add_zero, Real.sqrt_mul_self_eq_abs]
      · rw [abs_of_nonneg h]; ring
      · intro x hx
        rw [hrest x hx]; ring
    · refine ⟨|v0|, 1 + 1, 1, ?_, ?_, by ring, ?_, ?_⟩
      · have : leB (0 : ℝ) v0 = false := by
          rw [Bool.eq_false_iff]
          simp only [leB, FloatOps.ltB, FloatOps.eqB, ne_eq, Bool.or_eq_true, decide_eq_true_eq]
          intro hh
          rcases hh with hh | hh <;> linarith
        rw [this]
        rfl
      · rw [add_zero, Real.sqrt_mul_self_eq_abs]
      · rw [abs_of_neg (by linarith)]; ring
      · intro x hx
        rw [hrest x hx]; ring
  · have hσp : 0 < σ := lt_of_le_of_ne hs0 (Ne.symm hσ)
    rw [if_neg (by simp [FloatOps.eqB, hσ])]
    set norm := Real.sqrt (σ + v0 * v0) with hnorm
    have hn2 : norm * norm = σ + v0 * v0 := Real.mul_self_sqrt (by linarith)
    have hnp : 0 < norm := Real.sqrt_pos.2 (by linarith)
    have hlt : |v0| < norm := by
      rw [hnorm, ← Real.sqrt_mul_self_eq_abs]
      exact Real.sqrt_lt_sqrt hv0 (by linarith)
    have h1 : v0 - norm ≠ 0 := by
      have := le_abs_self v0
      linarith
    have key : (if leB v0 0 = true then v0 - norm else -σ / (v0 + norm)) = v0 - norm := by
      split
      · rfl
      · have : v0 + norm ≠ 0 := by
          have := neg_abs_le v0
          linarith
        rw [div_eq_iff this]
        linear_combination hn2
    refine ⟨norm, -(1 / (norm * (v0 - norm))), v0 - norm, ?_, ?_, ?_, ?_, ?_⟩
    · have : FloatOps.sqrt (σ + v0 * v0) = norm := rfl
      rw [this, key]
      rfl
    · rw [hnorm, add_comm]
    · have hne : norm * (v0 - norm) ≠ 0 := mul_ne_zero hnp.ne' h1
      have : -(1 / (norm * (v0 - norm))) * ((v0 - norm) * (v0 - norm) + σ) = 2 := by
        rw [neg_mul, one_div, ← mul_neg, inv_mul_eq_iff_eq_mul₀ hne]
        linear_combination hn2
      rw [this]; ring
    · have hne : norm * (v0 - norm) ≠ 0 := mul_ne_zero hnp.ne' h1
      have : ((v0 - norm) * v0 + σ) * -(1 / (norm * (v0 - norm))) = 1 := by
        rw [mul_neg, mul_one_div, ← neg_div, div_eq_one_iff_eq hne]
        linear_combination hn2
      rw [this]; ring
    · intro x _
      have hne : norm * (v0 - norm) ≠ 0 := mul_ne_zero hnp.ne' h1
      have : ((v0 - norm) * v0 + σ) * -(1 / (norm * (v0 - norm))) = 1 := by
        rw [mul_neg, mul_one_div, ← neg_div, div_eq_one_iff_eq hne]
        linear_combination hn2
      rw [this]; ring

theorem sparseAt_inner {rows : List Nat} (hn : rows.Nodup) {m : Nat} (h : ∀ r ∈ rows, r < m) {vs us : List ℝ} (hv : vs.length = rows.length)
    (hu : us.length = rows.length) :
    ∑ s ∈ Finset.range m, sparseAt rows vs s * sparseAt rows us s = (List.zipWith (· * ·) vs us).sum := by
  rw [sparseAt_sum h]
  congr 1
  apply List.ext_getElem?
  intro i
  rw [List.getElem?_map, List.getElem?_zipWith]
  by_cases hi : i < rows.length
  · have h1 : rows[i]? = some rows[i] := List.getElem?_eq_getElem hi
    have h2 : vs[i]? = some (vs[i]'(by omega)) := List.getElem?_eq_getElem _
    have h3 : us[i]? = some (us[i]'(by omega)) := List.getElem?_eq_getElem _
    have h4 : (rows.zip vs)[i]? = some (rows[i], vs[i]'(by omega)) := List.getElem?_zip_eq_some.2 ⟨h1, h2⟩
    rw [h4, h2, h3]
    simp only [Option.map_some]
    rw [sparseAt_getElem hn h1 h3]
  · have h1 : (rows.zip vs)[i]? = none := List.getElem?_eq_none (by simp; omega)
    have h2 : vs[i]? = none := List.getElem?_eq_none (by omega)
    rw [h1, h2]
    rfl

theorem zipWith_self (l : List ℝ) : List.zipWith (· * ·) l l = l.map (fun x => x * x) := by
  induction l with
  | nil => rfl
  | cons a l ih => rw [List.zipWith_cons_cons, ih, List.map_cons]

/-- The reflector that is computed for the vector with values `v` at `rows`. -/
theorem householder_vector {rows : List Nat} {r : Nat} (hhead : rows.head? = some r) (hn : rows.Nodup) {m : Nat} (h : ∀ r ∈ rows, r < m)
    {v : List ℝ} (hv : v.length = rows.length) :
    ∃ norm β v', calculateHouseholder v = .ok (norm, β, v') ∧ v'.length = v.length ∧ Orthogonal m β (sparseAt rows v') ∧
      norm = Real.sqrt (∑ s ∈ Finset.range m, sparseAt rows v s * sparseAt rows v s) ∧
      reflect m β (sparseAt rows v') (sparseAt rows v) = fun t => if t = r then norm else 0 := by
  cases rows with
  | nil => simp at hhead
  | cons r' rows =>
    simp only [List.head?_cons, Option.some.injEq] at hhead
    subst hhead
    cases v with
    | nil => simp at hv
    | cons v0 rest =>
      obtain ⟨norm, β, v', h1, h2, h3, h4, h5⟩ := calculateHouseholder_spec v0 rest
      have hnd := List.nodup_cons.1 hn
      have hl : (v' :: rest).length = (r' :: rows).length := by simpa using hv
      refine ⟨norm, β, v' :: rest, h1, by simp, ?_, ?_, ?_⟩
      · rw [Orthogonal, sparseAt_inner hn h hl hl, List.zipWith_cons_cons, zipWith_self, List.sum_cons]
        exact h3
      · rw [h2, sparseAt_inner hn h hv hv, List.zipWith_cons_cons, zipWith_self, List.sum_cons]
      · funext t
        rw [reflect, sparseAt_inner hn h hl hv, List.zipWith_cons_cons, zipWith_self, List.sum_cons, sparseAt_cons, sparseAt_cons]
        by_cases ht : t = r'
        · subst ht
          rw [if_pos rfl, if_pos rfl, if_pos rfl, sparseAt_eq_zero hnd.1, add_zero, add_zero]
          exact h4
        · simp only [if_neg (Ne.symm ht), if_neg ht, zero_add]
          by_cases hmem : t ∈ rows
          · obtain ⟨i, hi⟩ := List.mem_iff_getElem?.1 hmem
            have hi' := (List.getElem?_eq_some_iff.1 hi).1
            have hlr : rest.length = rows.length := by simpa using hv
            have hri : rest[i]? = some (rest[i]'(by omega)) := List.getElem?_eq_getElem _
            rw [sparseAt_getElem hnd.2 hi hri]
            exact h5 _ (List.mem_of_getElem? hri)
          · rw [sparseAt_eq_zero hmem]
            ring

end Fiksi
