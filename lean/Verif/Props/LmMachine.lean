import Verif.Spec.LevenbergMarquardt
import Verif.Props.LmQr
/-!
# C66: Levenberg–Marquardt is the textbook method, and why it stops
-/
namespace Fiksi
open FloatOps
open Spec (Fitting squares entrySum IsDampedLeastSquares)

theorem squares_eq (v : List ℝ) : squares v = normSquared v := by
  rw [normSquared_real, squares]
  simp only [sq]

/-- The problem `p` computes the residuals and the Jacobian of `P`, at the positions `pattern`. -/
structure Problem.Computes (p : Problem ℝ) (P : Fitting) (pattern : List (Nat × Nat)) : Prop where
  rows : p.numResiduals = P.m
  columns : p.numVariables = P.n
  residuals : ∀ x, x.length = P.n → p.residuals x = .ok (P.res x) ∧ (P.res x).length = P.m
  sparse : ∀ x rs, x.length = P.n → rs.length = P.m → ∃ ts, p.sparseJacobian x rs [] = .ok (P.res x, ts) ∧ Spec.positions ts = pattern ∧
    (∀ t ∈ ts, t.1 < P.m ∧ t.2.1 < P.n) ∧ ∀ r < P.m, ∀ c < P.n, entrySum ts r c = P.jac x r c

theorem Problem.Computes.total {p : Problem ℝ} {P : Fitting} {pattern : List (Nat × Nat)} (h : p.Computes P pattern) : p.Total pattern where
  residuals x hx := by
    rw [h.columns] at hx
    exact ⟨_, (h.residuals x hx).1, h.rows ▸ (h.residuals x hx).2⟩
  sparse x rs hx hrs := by
    rw [h.columns] at hx
    rw [h.rows] at hrs
    obtain ⟨ts, h1, h2, h3, -⟩ := h.sparse x rs hx hrs
    rw [h.rows, h.columns]
    exact ⟨_, ts, h1, (h.residuals x hx).1, h2, h3⟩

/-- The state of the optimiser at `x`. -/
structure LmState.At (P : Fitting) (pattern : List (Nat × Nat)) (x : List ℝ) (st : LmState ℝ) : Prop where
  length : x.length = P.n
  vars : st.vars = x
  scratch : st.scratch.length = P.n
  residuals : st.residuals = (P.res x).map (fun r => -r)
  count : (P.res x).length = P.m
  ssr : st.ssr = P.cost x
  augmented : Spec.Augmented P.m P.n st.triplets
  positions : Spec.positions st.triplets = pattern ++ (List.range P.n).map (fun i => (P.m + i, i))
  jac : ∀ r < P.m, ∀ c < P.n, entrySum st.triplets r c = P.jac x r c

section
variable {p : Problem ℝ} {P : Fitting} {pattern : List (Nat × Nat)} (hp : p.Computes P pattern)
include hp

theorem lmJacobian_at {x rs : List ℝ} (hx : x.length = P.n) (hrs : rs.length = P.m) : ∃ ts, lmJacobian p x rs = .ok ((P.res x).map (fun r => -r), ts) ∧
    Spec.Augmented P.m P.n ts ∧ Spec.positions ts = pattern ++ (List.range P.n).map (fun i => (P.m + i, i)) ∧
    ∀ r < P.m, ∀ c < P.n, entrySum ts r c = P.jac x r c := by
  obtain ⟨ts, h1, h2, h3, h4⟩ := hp.sparse x rs hx hrs
  refine ⟨ts ++ (List.range P.n).map (fun i => (P.m + i, i, (0 : ℝ))), ?_, ⟨ts, h3, rfl⟩, ?_, fun r hr c hc => ?_⟩
  · rw [lmJacobian, h1, ok_bind, hp.rows, hp.columns]
    rfl
  · simp only [Spec.positions, List.map_append, List.map_map] at h2 ⊢
    rw [h2]
    rfl
  · rw [← h4 r hr c hc]
    unfold entrySum
    rw [List.filter_append, List.map_append, List.sum_append]
    have : ((List.range P.n).map (fun i => (P.m + i, i, (0 : ℝ)))).filter (fun t => t.1 = r ∧ t.2.1 = c) = [] := by
      rw [List.filter_eq_nil_iff]
      intro t ht
      obtain ⟨i, -, rfl⟩ := List.mem_map.1 ht
      simp only [decide_eq_true_eq, not_and]
      omega
    rw [this]
    simp

omit hp in
theorem lmTrial_eq {vars delta scratch : List ℝ} {n : Nat} (hv : vars.length = n) (hd : delta.length = n) (hs : scratch.length = n) :
    (List.range n).foldlM (lmTrial vars delta) scratch = .ok (Fitting.add vars delta) := by
  have key : ∀ k ≤ n, (List.range k).foldlM (lmTrial vars delta) scratch = .ok ((Fitting.add vars delta).take k ++ scratch.drop k) := by
    intro k
    induction k with
    | zero => intro _; simp [pure_eq_ok]
    | succ k ih =>
      intro hk
      rw [List.range_succ, List.foldlM_append, ih (by omega), ok_bind, List.foldlM_cons, lmTrial, idx_getD (by omega), ok_bind, idx_getD (by omega), ok_bind,
        setIdx_of _ (by simp [Fitting.add]; omega), ok_bind]
      refine congrArg Except.ok ?_
      apply List.ext_getElem?
      intro i
      have hlen : (Fitting.add vars delta).length = n := by simp [Fitting.add, hv, hd]
      rcases lt_trichotomy i k with h | rfl | h
      · rw [List.getElem?_set_ne (by omega), List.getElem?_append_left (by simp; omega), List.getElem?_append_left (by simp; omega)]
        rw [List.getElem?_take_of_lt h, List.getElem?_take_of_lt (by omega)]
      · rw [List.getElem?_set_self (by simp; omega), List.getElem?_append_left (by simp; omega), List.getElem?_take_of_lt (by omega)]
        simp [Fitting.add, List.getElem?_zipWith, List.getElem?_eq_getElem (show i < vars.length by omega), List.getElem?_eq_getElem (show i < delta.length by omega)]
      · rw [List.getElem?_set_ne (by omega), List.getElem?_append_right (by simp; omega), List.getElem?_append_right (by simp; omega)]
        simp only [List.length_take, hlen, List.getElem?_drop]
        congr 1
        omega
  rw [key n le_rfl, List.take_of_length_le (by simp [Fitting.add, hv, hd]), List.drop_of_length_le (by omega), List.append_nil]

omit hp in
theorem isStep_iff {x δ : List ℝ} {lam : ℝ} (hl : 0 ≤ lam) {J : Nat → Nat → ℝ} (hJ : ∀ r < P.m, ∀ c < P.n, J r c = P.jac x r c) :
    IsDampedLeastSquares J P.m P.n (Real.sqrt lam) ((P.res x).map (fun r => -r)) δ ↔ P.IsStep x lam δ := by
  unfold IsDampedLeastSquares Fitting.IsStep
  rw [Real.sq_sqrt hl]
  refine and_congr_right fun _ => forall₂_congr fun c hc => ?_
  rw [Finset.sum_congr rfl fun r hr => ?_]
  rw [Finset.mem_range] at hr
  rw [hJ r hr c hc]
  congr 1
  have h1 : ∑ c' ∈ Finset.range P.n, J r c' * δ.getD c' 0 = ∑ c' ∈ Finset.range P.n, P.jac x r c' * δ.getD c' 0 :=
    Finset.sum_congr rfl fun c' hc' => by rw [hJ r hr c' (Finset.mem_range.1 hc')]
  have h2 : ((P.res x).map (fun r => -r)).getD r 0 = -(P.res x).getD r 0 := by
    rw [List.getD_eq_getElem?_getD, List.getElem?_map, List.getD_eq_getElem?_getD]
    cases (P.res x)[r]? <;> simp
  rw [h1, h2, sub_neg_eq_add]

omit hp in
theorem lmRelax_eq (lambda : ℝ) : lmRelax lambda = max (lambda / 8) (1 / 10 ^ 50) := by
  rw [lmRelax]
  have h1 : (ratio 125 1000 : ℝ) = 1 / 8 := by norm_num [ratio, ofNat]
  rw [h1, ratio_one, mul_one_div, one_div]
  simp only [ltB, decide_eq_true_eq]
  split
  · rename_i h
    rw [max_eq_right h.le]
  · rename_i h
    rw [max_eq_left (not_lt.1 h)]

variable {ls : LeastSquares ℝ} {sym : ls.Symbolic} (hsym : ∀ ts μ b, Spec.Augmented P.m P.n ts →
  Spec.positions ts = pattern ++ (List.range P.n).map (fun i => (P.m + i, i)) → 0 < μ → b.length = P.m →
  ∃ b', ls.solve sym P.m P.n ts μ (b ++ List.replicate P.n 0) = .ok (some b') ∧ IsDampedLeastSquares (entrySum ts) P.m P.n μ b (b'.take P.n))
include hsym

theorem lmInner_machine {x : List ℝ} (hcost : 1 / 10 ^ 8 ≤ P.cost x) : ∀ (fuel : Nat) (st : LmState ℝ) (stop : Bool) (st' : LmState ℝ), st.At P pattern x → 0 < st.lambda →
    lmInner p ls sym fuel st = .ok (stop, st') → ∃ μ δ, P.Search x st.lambda μ δ ∧
      ((squares δ < 1 / 10 ^ 12 ∧ stop = true ∧ st'.vars = x) ∨
       (1 / 10 ^ 12 ≤ squares δ ∧ P.cost x - P.cost (Fitting.add x δ) ≤ P.cost x / 10 ^ 6 ∧ stop = true ∧ st'.vars = Fitting.add x δ) ∨
       (1 / 10 ^ 12 ≤ squares δ ∧ P.cost x / 10 ^ 6 < P.cost x - P.cost (Fitting.add x δ) ∧ stop = false ∧ st'.At P pattern (Fitting.add x δ) ∧
        st'.lambda = max (μ / 8) (1 / 10 ^ 50))) := by
  intro fuel
  induction fuel with
  | zero => intro st stop st' _ _ h; cases h
  | succ fuel ih =>
    intro st stop st' hst hlam h
    obtain ⟨b', h1, h2⟩ := hsym st.triplets (Real.sqrt st.lambda) st.residuals hst.augmented hst.positions (Real.sqrt_pos.2 hlam) (by rw [hst.residuals, List.length_map, hst.count])
    rw [lmInner, hp.rows, hp.columns] at h
    simp only [sqrt, h1, ok_bind] at h
    rw [hst.residuals, isStep_iff hlam.le hst.jac] at h2
    have hδ := h2.1
    set δ := b'.take P.n with hδd
    have hpos : 0 < P.cost x := lt_of_lt_of_le (by positivity) hcost
    split at h
    · rename_i h3
      cases h
      simp only [ltB, decide_eq_true_eq, ratio_one, ← squares_eq, ← one_div] at h3
      exact ⟨_, δ, .found h2 (.inl h3), .inl ⟨h3, rfl, hst.vars⟩⟩
    · rename_i h3
      simp only [ltB, decide_eq_true_eq, ratio_one, ← squares_eq, ← one_div, not_lt] at h3
      have hy : (Fitting.add x δ).length = P.n := by simp [Fitting.add, hst.length, hδ]
      obtain ⟨h4, h5⟩ := hp.residuals _ hy
      rw [hst.vars, lmTrial_eq hst.length hδ hst.scratch, ok_bind, h4, ok_bind, ← squares_eq] at h
      split at h
      · rename_i h6
        simp only [ltB, decide_eq_true_eq, hst.ssr] at h6
        have hsearch : P.Search x st.lambda st.lambda δ := .found h2 (.inr h6)
        refine ⟨_, δ, hsearch, .inr ?_⟩
        rw [lmAccept] at h
        simp only [hst.ssr, ratio_one, lmRelax_eq] at h
        have hch : (P.cost x - squares (P.res (Fitting.add x δ))) / P.cost x ≤ (10 ^ 6)⁻¹ ↔ P.cost x - P.cost (Fitting.add x δ) ≤ P.cost x / 10 ^ 6 := by
          rw [div_le_iff₀ hpos, inv_mul_eq_div]
          rfl
        split at h
        · rename_i h7
          cases h
          refine .inl ⟨h3, hch.1 ?_, rfl, rfl⟩
          simp only [ltB, eqB, Bool.or_eq_true, decide_eq_true_eq] at h7
          exact h7.elim le_of_lt le_of_eq
        · rename_i h7
          obtain ⟨ts, q1, q2, q3, q4⟩ := lmJacobian_at hp hy (rs := st.residuals) (by rw [hst.residuals, List.length_map, hst.count])
          rw [q1, ok_bind] at h
          cases h
          refine .inr ⟨h3, lt_of_not_ge fun hle => h7 ?_, rfl, ⟨hy, rfl, hy, rfl, h5, rfl, q2, q3, q4⟩, rfl⟩
          simp only [ltB, eqB, Bool.or_eq_true, decide_eq_true_eq]
          exact lt_or_eq_of_le (hch.2 hle)
      · rename_i h6
        simp only [ltB, decide_eq_true_eq, hst.ssr, not_lt] at h6
        obtain ⟨μ, δ', h7, h8⟩ := ih { st with scratch := Fitting.add x δ, lambda := st.lambda * ofNat 2 } stop st'
          ⟨hst.length, hst.vars, hy, hst.residuals, hst.count, hst.ssr, hst.augmented, hst.positions, hst.jac⟩ (by
            show 0 < st.lambda * ((2 : ℕ) : ℝ)
            positivity) (by rw [hst.vars]; exact h)
        refine ⟨μ, δ', .doubled h2 h3 h6 ?_, h8⟩
        have : st.lambda * (ofNat 2 : ℝ) = 2 * st.lambda := by
          show st.lambda * ((2 : ℕ) : ℝ) = _
          push_cast
          ring
        rw [← this]
        exact h7

theorem lmOuter_machine {fuel : Nat} : ∀ (n : Nat) (x : List ℝ) (st st' : LmState ℝ), st.At P pattern x → 0 < st.lambda → lmOuter p ls sym fuel n st = .ok st' →
    P.Run n x st.lambda st'.vars := by
  intro n
  induction n with
  | zero =>
    intro x st st' hst _ h
    cases h
    rw [hst.vars]
    exact .spent
  | succ n ih =>
    intro x st st' hst hlam h
    rw [lmOuter] at h
    split at h
    · rename_i h1
      cases h
      simp only [ltB, decide_eq_true_eq, ratio_one, hst.ssr, ← one_div] at h1
      rw [hst.vars]
      exact .solved h1
    · rename_i h1
      simp only [ltB, decide_eq_true_eq, ratio_one, hst.ssr, ← one_div, not_lt] at h1
      rw [bind_eq_ok] at h
      obtain ⟨⟨stop, st1⟩, h2, h⟩ := h
      obtain ⟨μ, δ, h3, h4 | h4 | h4⟩ := lmInner_machine hp hsym h1 fuel st stop st1 hst hlam h2
      · obtain ⟨h4, rfl, h5⟩ := h4
        cases h
        rw [h5]
        exact .tiny h1 h3 h4
      · obtain ⟨h4, h6, rfl, h5⟩ := h4
        cases h
        rw [h5]
        exact .stalled h1 h3 h4 h6
      · obtain ⟨h4, h6, rfl, h5, h7⟩ := h4
        refine .step h1 h3 h4 h6 ?_
        rw [← h7]
        refine ih _ _ _ h5 ?_ h
        rw [h7]
        exact lt_of_lt_of_le (by positivity) (le_max_right _ _)

end

/-- C66: in exact arithmetic, with an exact linear solver, the optimiser does what the method of the specification does with 100 steps and the damping 1/2 at first. -/
theorem C66_lm_is_method {p : Problem ℝ} {P : Fitting} {pattern : List (Nat × Nat)} (hp : p.Computes P pattern) {S : Nat → Nat → Nat → Prop} {ls : LeastSquares ℝ}
    (hls : ls.Exact S) (hS : S P.m P.n (pattern.length + P.n)) {x x' : List ℝ} (hx : x.length = P.n) {fuel : Nat} (h : levenbergMarquardt p ls fuel x = .ok x') :
    P.Run 100 x (1 / 2) x' := by
  rw [levenbergMarquardt, bind_eq_ok] at h
  obtain ⟨st, h, h'⟩ := h
  cases h'
  obtain ⟨ts, q1, q2, q3, q4⟩ := lmJacobian_at hp hx (rs := List.replicate P.m 0) (by simp)
  obtain ⟨sym, h1, h2⟩ := hls P.m P.n ts q2 (by rw [← lmJacobian_size q3]; exact hS)
  rw [lmRun, lmStart, hp.rows, q1, ok_bind, hp.columns, h1, ok_bind] at h
  have hr : (ratio 5 10 : ℝ) = 1 / 2 := by norm_num [ratio, ofNat]
  have := lmOuter_machine hp (sym := sym) (fun ts' μ b a1 a2 a3 a4 => h2 ts' μ b a1 (a2.trans q3.symm) a3 a4) 100 x _ st
    ⟨hx, rfl, hx, rfl, (hp.residuals x hx).2, by
      rw [normSquared_neg (fun x => neg_mul_neg x x), ← squares_eq]
      rfl, q2, q3, q4⟩ (by rw [hr]; norm_num) h
  rw [hr] at this
  exact this

/-! ## The method is deterministic -/

theorem Spec.Fitting.IsStep.unique {P : Fitting} {x δ δ' : List ℝ} {lam : ℝ} (hl : 0 < lam) (h : P.IsStep x lam δ) (h' : P.IsStep x lam δ') : δ = δ' := by
  have hlen : (List.zipWith (· - ·) δ δ').length = P.n := by simp [h.1, h'.1]
  have hget : ∀ c < P.n, (List.zipWith (· - ·) δ δ').getD c 0 = δ.getD c 0 - δ'.getD c 0 := by
    intro c hc
    simp [List.getD_eq_getElem?_getD, List.getElem?_zipWith, List.getElem?_eq_getElem (show c < δ.length from h.1 ▸ hc), List.getElem?_eq_getElem (show c < δ'.length from h'.1 ▸ hc)]
  have hd : IsDampedLeastSquares (P.jac x) P.m P.n (Real.sqrt lam) (List.replicate P.m 0) (List.zipWith (· - ·) δ δ') := by
    refine ⟨hlen, fun c hc => ?_⟩
    have h1 := h.2 c hc
    have h2 := h'.2 c hc
    rw [hget c hc, Real.sq_sqrt hl.le]
    have h3 : ∀ r ∈ Finset.range P.m, P.jac x r c * ((∑ c' ∈ Finset.range P.n, P.jac x r c' * (List.zipWith (· - ·) δ δ').getD c' 0) - (List.replicate P.m (0 : ℝ)).getD r 0) =
        P.jac x r c * ((∑ c' ∈ Finset.range P.n, P.jac x r c' * δ.getD c' 0) + (P.res x).getD r 0) -
          P.jac x r c * ((∑ c' ∈ Finset.range P.n, P.jac x r c' * δ'.getD c' 0) + (P.res x).getD r 0) := by
      intro r hr
      have h4 : (List.replicate P.m (0 : ℝ)).getD r 0 = 0 := by
        rw [List.getD_eq_getElem?_getD, List.getElem?_replicate]
        split <;> rfl
      have h5 : ∑ c' ∈ Finset.range P.n, P.jac x r c' * (List.zipWith (· - ·) δ δ').getD c' 0 =
          ∑ c' ∈ Finset.range P.n, P.jac x r c' * δ.getD c' 0 - ∑ c' ∈ Finset.range P.n, P.jac x r c' * δ'.getD c' 0 := by
        rw [← Finset.sum_sub_distrib]
        refine Finset.sum_congr rfl fun c' hc' => ?_
        rw [hget c' (Finset.mem_range.1 hc'), mul_sub]
      rw [h4, h5]
      ring
    rw [Finset.sum_congr rfl h3, Finset.sum_sub_distrib]
    linarith
  have hb := damped_bound (by simp) hd
  rw [Real.sq_sqrt hl.le] at hb
  have h0 : normSquared (List.replicate P.m (0 : ℝ)) = 0 := by
    rw [normSquared_real]
    simp
  rw [h0, normSquared_real, sum_map_getD, hlen] at hb
  have hz : ∑ i ∈ Finset.range P.n, (List.zipWith (· - ·) δ δ').getD i 0 * (List.zipWith (· - ·) δ δ').getD i 0 = 0 := by
    have h7 : 0 ≤ ∑ i ∈ Finset.range P.n, (List.zipWith (· - ·) δ δ').getD i 0 * (List.zipWith (· - ·) δ δ').getD i 0 := Finset.sum_nonneg fun i _ => mul_self_nonneg _
    nlinarith
  rw [Finset.sum_eq_zero_iff_of_nonneg fun i _ => mul_self_nonneg _] at hz
  refine List.ext_getElem (h.1.trans h'.1.symm) fun i hi hi' => ?_
  have h8 := mul_self_eq_zero.1 (hz i (Finset.mem_range.2 (by rw [← h.1]; exact hi)))
  rw [hget i (by rw [← h.1]; exact hi)] at h8
  simp only [List.getD_eq_getElem?_getD, List.getElem?_eq_getElem hi, List.getElem?_eq_getElem hi', Option.getD_some] at h8
  linarith

theorem Spec.Fitting.Search.step {P : Fitting} {x δ : List ℝ} {lam μ : ℝ} (h : P.Search x lam μ δ) : P.IsStep x μ δ ∧ (squares δ < 1 / 10 ^ 12 ∨ P.cost (Fitting.add x δ) < P.cost x) ∧ (0 < lam → 0 < μ) := by
  induction h with
  | found h1 h2 => exact ⟨h1, h2, id⟩
  | doubled _ _ _ _ ih => exact ⟨ih.1, ih.2.1, fun h => ih.2.2 (by linarith)⟩

theorem Spec.Fitting.Search.unique {P : Fitting} {x δ δ' : List ℝ} {lam μ μ' : ℝ} (hl : 0 < lam) (h : P.Search x lam μ δ) (h' : P.Search x lam μ' δ') : μ = μ' ∧ δ = δ' := by
  induction h generalizing μ' δ' with
  | found h1 h2 =>
    cases h' with
    | found h3 h4 => exact ⟨rfl, h1.unique hl h3⟩
    | doubled h3 h4 h5 _ =>
      rw [← h1.unique hl h3] at h4 h5
      rcases h2 with h2 | h2 <;> linarith
  | doubled h1 h2 h3 _ ih =>
    cases h' with
    | found h4 h5 =>
      rw [← h1.unique hl h4] at h5
      rcases h5 with h5 | h5 <;> linarith
    | doubled _ _ _ h7 => exact ih (by linarith) h7

/-- C66: the method leaves no choice: the specification has one outcome. -/
theorem C66_method_deterministic {P : Fitting} {k : Nat} {x y z : List ℝ} {lam : ℝ} (hl : 0 < lam) (h : P.Run k x lam y) (h' : P.Run k x lam z) : y = z := by
  induction h generalizing z with
  | spent => cases h'; rfl
  | solved h1 => cases h' <;> first | rfl | (exfalso; linarith)
  | tiny h1 h2 h3 =>
    cases h' with
    | solved h4 => rfl
    | tiny => rfl
    | stalled _ h5 h6 _ =>
      rw [← (h2.unique hl h5).2] at h6
      linarith
    | step _ h5 h6 _ _ =>
      rw [← (h2.unique hl h5).2] at h6
      linarith
  | stalled h1 h2 h3 h4 =>
    cases h' with
    | solved h5 => linarith
    | tiny _ h5 h6 =>
      rw [← (h2.unique hl h5).2] at h6
      linarith
    | stalled _ h5 _ _ => rw [(h2.unique hl h5).2]
    | step _ h5 _ h7 _ =>
      rw [← (h2.unique hl h5).2] at h7
      linarith
  | step h1 h2 h3 h4 h5 ih =>
    cases h' with
    | solved h6 => linarith
    | tiny _ h6 h7 =>
      rw [← (h2.unique hl h6).2] at h7
      linarith
    | stalled _ h6 _ h7 =>
      rw [← (h2.unique hl h6).2] at h7
      linarith
    | step _ h6 _ _ h8 =>
      obtain ⟨rfl, rfl⟩ := h2.unique hl h6
      exact ih (lt_of_lt_of_le (by positivity) (le_max_right _ _)) h8

/-- C66: for every start the method has an outcome, and it is what the optimiser returns, for all loop bounds from some on. -/
theorem C66_lm_returns_outcome {p : Problem ℝ} {P : Fitting} {pattern : List (Nat × Nat)} (hp : p.Computes P pattern) {S : Nat → Nat → Nat → Prop} {ls : LeastSquares ℝ}
    (hls : ls.Exact S) (hS : S P.m P.n (pattern.length + P.n)) {x : List ℝ} (hx : x.length = P.n) :
    ∃ x' k, P.Run 100 x (1 / 2) x' ∧ ∀ fuel, k ≤ fuel → levenbergMarquardt p ls fuel x = .ok x' := by
  obtain ⟨f, hf⟩ := pow_unbounded_of_one_lt (P.cost x * 10 ^ 62) (show (1 : ℝ) < 2 by norm_num)
  have hret : ∀ fuel, f + 1 ≤ fuel → ∃ x', levenbergMarquardt p ls fuel x = .ok x' := by
    intro fuel hfu
    obtain ⟨g, rfl⟩ : ∃ g, fuel = g + 1 := ⟨fuel - 1, by omega⟩
    obtain ⟨st, h1⟩ := C52_returns_partial hp.total hls (by rw [hp.rows, hp.columns]; exact hS) (by rw [hp.columns]; exact hx) (hp.residuals x hx).1 (f := g) (by
      have h2 : (2 : ℝ) ^ f ≤ 2 ^ g := pow_le_pow_right₀ (by norm_num) (by omega)
      have h3 : ((P.res x).map (fun v => v * v)).sum = P.cost x := by
        simp only [Fitting.cost, squares, sq]
      have h4 : (0 : ℝ) < 2 ^ g := by positivity
      rw [h3]
      linarith)
    exact ⟨st.vars, by rw [levenbergMarquardt, h1, ok_bind]; rfl⟩
  obtain ⟨x', h1⟩ := hret _ le_rfl
  refine ⟨x', f + 1, C66_lm_is_method hp hls hS hx h1, fun fuel hfu => ?_⟩
  obtain ⟨x'', h2⟩ := hret fuel hfu
  rw [h2, C66_method_deterministic (by norm_num) (C66_lm_is_method hp hls hS hx h2) (C66_lm_is_method hp hls hS hx h1)]

/-! ## Why it stops -/

theorem Spec.Fitting.Run.reason {P : Fitting} {k : Nat} {x y : List ℝ} {lam : ℝ} (hl : 0 < lam) (h : P.Run k x lam y) :
    P.cost y < 1 / 10 ^ 8 ∨ (∃ μ δ, 0 < μ ∧ P.IsStep y μ δ ∧ squares δ < 1 / 10 ^ 12) ∨
    (∃ z μ δ, 0 < μ ∧ P.IsStep z μ δ ∧ y = Fitting.add z δ ∧ P.cost y < P.cost z ∧ P.cost z - P.cost y ≤ P.cost z / 10 ^ 6) ∨
    P.cost y ≤ (1 - 1 / 10 ^ 6) ^ k * P.cost x := by
  induction h with
  | spent => exact .inr (.inr (.inr (by simp)))
  | solved h1 => exact .inl h1
  | tiny h1 h2 h3 => exact .inr (.inl ⟨_, _, h2.step.2.2 hl, h2.step.1, h3⟩)
  | stalled h1 h2 h3 h4 => exact .inr (.inr (.inl ⟨_, _, _, h2.step.2.2 hl, h2.step.1, rfl, h2.step.2.1.resolve_left (not_lt.2 h3), h4⟩))
  | step h1 h2 h3 h4 h5 ih =>
    rcases ih (lt_of_lt_of_le (by positivity) (le_max_right _ _)) with h | h | h | h
    · exact .inl h
    · exact .inr (.inl h)
    · exact .inr (.inr (.inl h))
    · refine .inr (.inr (.inr (h.trans ?_)))
      rw [pow_succ (1 - 1 / 10 ^ 6 : ℝ), mul_assoc]
      refine mul_le_mul_of_nonneg_left ?_ (by positivity)
      linarith

/-- C66: why the optimiser stopped. The residuals are small, or the next step would be tiny, or the last step hardly decreased the sum of squares, or each of a hundred steps
decreased it by more than a millionth. -/
theorem C66_reasons {p : Problem ℝ} {P : Fitting} {pattern : List (Nat × Nat)} (hp : p.Computes P pattern) {S : Nat → Nat → Nat → Prop} {ls : LeastSquares ℝ}
    (hls : ls.Exact S) (hS : S P.m P.n (pattern.length + P.n)) {x x' : List ℝ} (hx : x.length = P.n) {fuel : Nat} (h : levenbergMarquardt p ls fuel x = .ok x') :
    P.cost x' < 1 / 10 ^ 8 ∨ (∃ μ δ, 0 < μ ∧ P.IsStep x' μ δ ∧ squares δ < 1 / 10 ^ 12) ∨
    (∃ z μ δ, 0 < μ ∧ P.IsStep z μ δ ∧ x' = Fitting.add z δ ∧ P.cost x' < P.cost z ∧ P.cost z - P.cost x' ≤ P.cost z / 10 ^ 6) ∨
    P.cost x' ≤ (1 - 1 / 10 ^ 6) ^ 100 * P.cost x :=
  (C66_lm_is_method hp hls hS hx h).reason (by norm_num)

/-- C66: if the sum of squares is below the threshold, every residual is below a ten-thousandth. -/
theorem C66_small_residuals {P : Fitting} {x : List ℝ} (h : P.cost x < 1 / 10 ^ 8) : ∀ r ∈ P.res x, |r| < 1 / 10 ^ 4 := by
  intro r hr
  have h1 : r ^ 2 ≤ P.cost x := by
    refine List.single_le_sum ?_ _ (List.mem_map.2 ⟨r, hr, rfl⟩)
    intro y hy
    obtain ⟨z, -, rfl⟩ := List.mem_map.1 hy
    positivity
  refine abs_lt_of_sq_lt_sq ?_ (by positivity)
  calc r ^ 2 ≤ _ := h1
    _ < _ := h
    _ = _ := by norm_num

theorem squares_entry {δ : List ℝ} {ε : ℝ} (hε : 0 ≤ ε) (h : squares δ < ε ^ 2) (c : Nat) : |δ.getD c 0| ≤ ε := by
  by_cases hc : c < δ.length
  · have h1 : (δ.getD c 0) ^ 2 ≤ squares δ := by
      refine List.single_le_sum ?_ _ (List.mem_map.2 ⟨_, ?_, rfl⟩)
      · intro y hy
        obtain ⟨z, -, rfl⟩ := List.mem_map.1 hy
        positivity
      · rw [List.getD_eq_getElem?_getD, List.getElem?_eq_getElem hc]
        exact List.getElem_mem hc
    exact abs_le_of_sq_le_sq (h1.trans h.le) hε
  · rw [List.getD_eq_getElem?_getD, List.getElem?_eq_none (by omega)]
    simpa using hε

/-- C66: where the step is tiny the gradient of the sum of squares is small, as far as the damping is. -/
theorem C66_tiny_gradient {P : Fitting} {x δ : List ℝ} {μ : ℝ} (hμ : 0 < μ) (h : P.IsStep x μ δ) (hδ : squares δ < 1 / 10 ^ 12) {c : Nat} (hc : c < P.n) :
    |∑ r ∈ Finset.range P.m, P.jac x r c * (P.res x).getD r 0| ≤
      ((∑ c' ∈ Finset.range P.n, |∑ r ∈ Finset.range P.m, P.jac x r c * P.jac x r c'|) + μ) / 10 ^ 6 := by
  have h1 := h.2 c hc
  have h2 : ∑ r ∈ Finset.range P.m, P.jac x r c * ((∑ c' ∈ Finset.range P.n, P.jac x r c' * δ.getD c' 0) + (P.res x).getD r 0) =
      (∑ c' ∈ Finset.range P.n, (∑ r ∈ Finset.range P.m, P.jac x r c * P.jac x r c') * δ.getD c' 0) + ∑ r ∈ Finset.range P.m, P.jac x r c * (P.res x).getD r 0 := by
    simp only [mul_add, Finset.sum_add_distrib, Finset.mul_sum, Finset.sum_mul]
    rw [Finset.sum_comm]
    simp only [mul_assoc]
  rw [h2] at h1
  have h3 : ∑ r ∈ Finset.range P.m, P.jac x r c * (P.res x).getD r 0 =
      -((∑ c' ∈ Finset.range P.n, (∑ r ∈ Finset.range P.m, P.jac x r c * P.jac x r c') * δ.getD c' 0) + μ * δ.getD c 0) := by linarith
  have hb := squares_entry (ε := 1 / 10 ^ 6) (by positivity) (by rw [one_div_pow, ← pow_mul]; exact hδ)
  rw [h3, abs_neg, add_div]
  refine (abs_add_le _ _).trans (add_le_add ?_ ?_)
  · rw [Finset.sum_div]
    refine (Finset.abs_sum_le_sum_abs _ _).trans (Finset.sum_le_sum fun c' _ => ?_)
    rw [abs_mul, div_eq_mul_one_div]
    exact mul_le_mul_of_nonneg_left (hb c') (abs_nonneg _)
  · rw [abs_mul, abs_of_pos hμ, div_eq_mul_one_div]
    exact mul_le_mul_of_nonneg_left (hb c) hμ.le

/-- C66: the method does not leave a point at which the gradient vanishes. -/
theorem C66_stationary_stays {P : Fitting} {x x' : List ℝ} {k : Nat} {lam : ℝ} (hl : 0 < lam) (h0 : ∀ c < P.n, ∑ r ∈ Finset.range P.m, P.jac x r c * (P.res x).getD r 0 = 0)
    (h : P.Run k x lam x') : x' = x := by
  have hstep : ∀ μ, P.IsStep x μ (List.replicate P.n 0) := by
    refine fun μ => ⟨by simp, fun c hc => ?_⟩
    have h1 : ∀ c', (List.replicate P.n (0 : ℝ)).getD c' 0 = 0 := by
      intro c'
      rw [List.getD_eq_getElem?_getD, List.getElem?_replicate]
      split <;> rfl
    simp only [h1, mul_zero, Finset.sum_const_zero, zero_add, add_zero]
    exact h0 c hc
  have hz : squares (List.replicate P.n (0 : ℝ)) = 0 := by simp [squares]
  have hs : ∀ {μ δ}, P.Search x lam μ δ → squares δ = 0 := by
    intro μ δ hse
    rw [hse.step.1.unique (hse.step.2.2 hl) (hstep μ), hz]
  cases h with
  | spent => rfl
  | solved => rfl
  | tiny => rfl
  | stalled _ h2 h3 => rw [hs h2] at h3; norm_num at h3
  | step _ h2 h3 => rw [hs h2] at h3; norm_num at h3

/-! ## The subproblems of `solve` -/

/-- The problem that a subsystem computes, row by row. -/
theorem Subsystem.Ok.fitting_rows {sub : Subsystem ℝ} (hok : sub.Ok) : ∃ P : Fitting, sub.problem.Computes P sub.pattern ∧
    (∀ x, x.length = sub.freeVariables.length → sub.calculateResiduals x = .ok (P.res x)) ∧
    (∀ x, x.length = sub.freeVariables.length → (∀ id ∈ sub.expressions, ∀ e, sub.allExpressions[id]? = some e → SmoothAt e (e.variableIndices.map (sub.valueOf x))) →
      ∀ row < P.m, ∀ c < P.n, HasDerivAt (fun s => (P.res (x.set c s)).getD row 0) (P.jac x row c) (x.getD c 0)) ∧
    ∀ x, x.length = sub.freeVariables.length → ∀ (row id : Nat) (d : ℝ × List (Variable ℝ × ℝ)), sub.expressions[row]? = some id → rowData sub x id = .ok d →
      (P.res x).getD row 0 = d.1 ∧ ∀ c, P.jac x row c = (slotVals c d.2).sum := by
  classical
  have hres : ∀ x : {x : List ℝ // x.length = sub.freeVariables.length}, ∃ r, sub.calculateResiduals x = .ok r ∧ r.length = sub.expressions.length := by
    intro x
    obtain ⟨rs, h1, h2, -⟩ := residuals_total hok x.2
    exact ⟨rs, h1, h2⟩
  choose R hR1 hR2 using hres
  let d (x : List ℝ) (row c : Nat) : ℝ := match sub.expressions[row]? with
    | none => 0
    | some id => match rowData sub x id with
      | .ok d => (slotVals c d.2).sum
      | .error _ => 0
  have hjac : ∀ x rs, x.length = sub.freeVariables.length → rs.length = sub.expressions.length → ∃ rs' ts, sub.sparseJacobian x rs [] = .ok (rs', ts) ∧
      sub.calculateResiduals x = .ok rs' ∧ Spec.positions ts = sub.pattern ∧ (∀ t ∈ ts, t.1 < sub.expressions.length ∧ t.2.1 < sub.freeVariables.length) ∧
      ∀ r < sub.expressions.length, ∀ c < sub.freeVariables.length, entrySum ts r c = d x r c := by
    intro x rs hx hrs
    obtain ⟨rs', ts, h1, h2, h3, h4⟩ := hok.total.sparse x rs hx hrs
    have h1' : sub.sparseJacobian x rs [] = .ok (rs', ts) := h1
    obtain ⟨rs'', ts', h5, -, -, -, h6⟩ := sparse_fold (sub := sub) (u := x) sub.expressions 0 rs [] (fun id hid => by
      obtain ⟨e, he, hv⟩ := hok id hid
      obtain ⟨rg, -, h, -⟩ := rowData_total hx he hv
      exact ⟨_, h⟩) (by omega)
    have h5' : sub.sparseJacobian x rs [] = .ok (rs'', ts') := h5
    rw [h1'] at h5'
    have hts : ts' = ts := congrArg Prod.snd (Except.ok.inj h5').symm
    subst hts
    refine ⟨rs', ts', h1', h2, h3, h4, fun r hr c hc => ?_⟩
    obtain ⟨id, hid⟩ : ∃ id, sub.expressions[r]? = some id := ⟨_, List.getElem?_eq_getElem hr⟩
    obtain ⟨e, he, hv⟩ := hok id (List.mem_of_getElem? hid)
    obtain ⟨rg, -, h, -⟩ := rowData_total hx he hv
    have h7 := (h6 r id _ hid h).2 c
    rw [Nat.zero_add] at h7
    rw [h7]
    simp only [d, hid, h]
    simp [entrySum]
  let P : Fitting := ⟨sub.expressions.length, sub.freeVariables.length, fun x => if h : x.length = sub.freeVariables.length then R ⟨x, h⟩ else [], d⟩
  have hP : ∀ x, x.length = sub.freeVariables.length → sub.calculateResiduals x = .ok (P.res x) := by
    intro x hx
    simp only [P, dif_pos hx]
    exact hR1 ⟨x, hx⟩
  refine ⟨P, ⟨rfl, rfl, fun x hx => ⟨hP x hx, ?_⟩, fun x rs hx hrs => ?_⟩, hP, fun x hx hs row hrow c hc => ?_, fun x hx row id dd hid hdd => ⟨?_, fun c => ?_⟩⟩
  · simp only [P, dif_pos (show x.length = sub.freeVariables.length from hx)]
    exact hR2 ⟨x, hx⟩
  · obtain ⟨rs', ts, h1, h2, h3, h4, h5⟩ := hjac x rs hx hrs
    rw [hP x hx] at h2
    cases h2
    exact ⟨ts, h1, h3, h4, h5⟩
  · obtain ⟨rs, ts, h1, -, h3⟩ := C29_sparse_is_derivative hok hx hs (List.replicate sub.expressions.length 0) (by simp)
    obtain ⟨f, h4, h5⟩ := h3 row hrow c hc
    obtain ⟨rs', ts', h6, -, -, -, h7⟩ := hjac x (List.replicate sub.expressions.length 0) hx (by simp)
    rw [h1] at h6
    have hts : ts = ts' := congrArg Prod.snd (Except.ok.inj h6)
    subst hts
    rw [h7 row hrow c hc] at h5
    have hf : f = fun s => (P.res (x.set c s)).getD row 0 := by
      funext s
      obtain ⟨rs'', h8, h9⟩ := h4 s
      rw [hP _ (by simpa using hx)] at h8
      cases h8
      rw [List.getD_eq_getElem?_getD, h9]
      rfl
    rw [← hf]
    exact h5
  · obtain ⟨rs, h1, -, h3⟩ := residuals_total hok hx
    obtain ⟨e, he, hv⟩ := hok id (List.mem_of_getElem? hid)
    obtain ⟨r, h4, h5⟩ := h3 row id e hid he
    obtain ⟨rg, -, h6, h7⟩ := rowData_total hx he hv
    rw [hP x hx] at h1
    cases h1
    rw [hdd] at h6
    cases h6
    rw [h4] at h7
    cases h7
    rw [List.getD_eq_getElem?_getD, h5]
    rfl
  · show d x row c = _
    simp only [d, hid, hdd]

theorem Subsystem.Ok.fitting {sub : Subsystem ℝ} (hok : sub.Ok) : ∃ P : Fitting, sub.problem.Computes P sub.pattern ∧
    (∀ x, x.length = sub.freeVariables.length → sub.calculateResiduals x = .ok (P.res x)) ∧
    ∀ x, x.length = sub.freeVariables.length → (∀ id ∈ sub.expressions, ∀ e, sub.allExpressions[id]? = some e → SmoothAt e (e.variableIndices.map (sub.valueOf x))) →
      ∀ row < P.m, ∀ c < P.n, HasDerivAt (fun s => (P.res (x.set c s)).getD row 0) (P.jac x row c) (x.getD c 0) := by
  obtain ⟨P, h1, h2, h3, -⟩ := hok.fitting_rows
  exact ⟨P, h1, h2, h3⟩

/-- C66: every call of Levenberg–Marquardt for a subproblem of `solve` (decomposers `None` and `SinglePass`), with the sparse QR of the crate, has the outcome of the method for the
residuals of the subproblem and their derivatives. -/
theorem C66_subproblems (cast : ℝ → Int) {sort : SortByKey} (hsort : Spec.Sorts sort) {sub : Subsystem ℝ} (hok : sub.Ok)
    (hfit : Spec.FitsWorkspace sub.expressions.length sub.freeVariables.length (sub.pattern.length + sub.freeVariables.length)) :
    ∃ P : Fitting, P.m = sub.expressions.length ∧ P.n = sub.freeVariables.length ∧
      (∀ x, x.length = sub.freeVariables.length → sub.calculateResiduals x = .ok (P.res x)) ∧
      (∀ x, x.length = sub.freeVariables.length → (∀ id ∈ sub.expressions, ∀ e, sub.allExpressions[id]? = some e → SmoothAt e (e.variableIndices.map (sub.valueOf x))) →
        ∀ row < P.m, ∀ c < P.n, HasDerivAt (fun s => (P.res (x.set c s)).getD row 0) (P.jac x row c) (x.getD c 0)) ∧
      ∀ x, x.length = sub.freeVariables.length → ∃ x' k, P.Run 100 x (1 / 2) x' ∧ ∀ fuel, k ≤ fuel →
        crateOptimize (qrLeastSquares sort (colamdOfStructure cast)) fuel .levenbergMarquardt sub.problem x = .ok x' := by
  obtain ⟨P, h1, h2, h3⟩ := hok.fitting
  have hm : P.m = sub.expressions.length := h1.rows.symm
  have hn : P.n = sub.freeVariables.length := h1.columns.symm
  refine ⟨P, hm, hn, h2, h3, fun x hx => ?_⟩
  exact C66_lm_returns_outcome h1 (qrColamd_exact cast hsort) (by rw [hm, hn]; exact hfit) (hx.trans hn.symm)

end Fiksi
