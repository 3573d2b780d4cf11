import Verif.Proofs.AffineLm
import Verif.Proofs.Differences
import Verif.Props.LmMachine
import Verif.Props.Success
import Verif.Props.Rng
import Verif.Props.SolveRecursive
/-!
# C69: coincidences are solved from any start
-/
namespace Fiksi
open Spec

/-- The value that an expression for the equality of two variables has. -/
theorem equality_residual {sub : Subsystem ℝ} {x : List ℝ} {a b : Nat} {r : ℝ}
    (h : (Expr.variableVariableEquality a b : Expr ℝ).calculateResidual (sub.getValue x) = .ok r) : r = sub.valueOf x b - sub.valueOf x a := by
  have key : ∀ v var, sub.getValue x v = .ok var → var.value = sub.valueOf x v := by
    intro v var hv
    unfold Subsystem.getValue at hv
    unfold Subsystem.valueOf
    split at hv <;> rename_i hk <;> rw [bind_eq_ok] at hv <;> obtain ⟨y, h1, h2⟩ := hv <;> cases h2 <;> rw [idx_eq_ok] at h1 <;>
      simp only [hk, Variable.value, List.getD_eq_getElem?_getD, h1, Option.getD_some]
  rw [Expr.calculateResidual, bind_eq_ok] at h
  obtain ⟨vs, h1, h2⟩ := h
  simp only [Expr.variableIndices] at h1
  rw [List.mapM_cons, bind_eq_ok] at h1
  obtain ⟨u, h3, h1⟩ := h1
  rw [bind_eq_ok] at h1
  obtain ⟨us, h4, h1⟩ := h1
  rw [List.mapM_cons, bind_eq_ok] at h4
  obtain ⟨w, h5, h4⟩ := h4
  rw [bind_eq_ok] at h4
  obtain ⟨ws, h6, h4⟩ := h4
  cases h6
  cases h4
  cases h1
  rw [bind_eq_ok] at h3 h5
  obtain ⟨u', h7, h8⟩ := h3
  obtain ⟨w', h9, h10⟩ := h5
  cases h8
  cases h10
  rw [key _ _ h7, key _ _ h9] at h2
  cases h2
  rfl

/-- Where a variable is in the list of free variables. -/
def slotOf (free : List Nat) (n v : Nat) : Option (Fin n) := (free.idxOf? v).bind fun k => if h : k < n then some ⟨k, h⟩ else none

theorem valueOf_grounded {sub : Subsystem ℝ} {x : List ℝ} {sol : Nat → ℝ} {v : Nat} (hfix : v ∉ sub.freeVariables → sub.systemVariables.getD v 0 = sol v) :
    sub.valueOf x v - sol v = grounded (fun c : Fin sub.freeVariables.length => x.getD c 0 - sol (sub.freeVariables.getD c 0)) (slotOf sub.freeVariables sub.freeVariables.length v) := by
  unfold Subsystem.valueOf slotOf
  cases hk : sub.freeVariables.idxOf? v with
  | none =>
    simp only [Option.bind_none, grounded]
    rw [hfix (List.idxOf?_eq_none_iff.1 hk), sub_self]
  | some k =>
    obtain ⟨hlt, h1, -⟩ := List.idxOf?_eq_some_iff.1 hk
    simp only [Option.bind_some, dif_pos hlt, grounded]
    simp only [List.getD_eq_getElem?_getD, List.getElem?_eq_getElem hlt, h1, Option.getD_some]

/-- A subproblem all of whose equations are equalities of variables, and which has a solution, is affine. -/
theorem Subsystem.affine {sub : Subsystem ℝ} (hok : sub.Ok) {fst snd : Nat → Nat}
    (heq : ∀ (r id : Nat), sub.expressions[r]? = some id → sub.allExpressions[id]? = some (Expr.variableVariableEquality (fst r) (snd r)))
    {sol : Nat → ℝ} (hsol : ∀ r < sub.expressions.length, sol (fst r) = sol (snd r) ∧ ∀ v, (v = fst r ∨ v = snd r) → v ∉ sub.freeVariables → sub.systemVariables.getD v 0 = sol v)
    {P : Fitting} (hm : P.m = sub.expressions.length) (hn : P.n = sub.freeVariables.length)
    (hres : ∀ x, x.length = sub.freeVariables.length → sub.calculateResiduals x = .ok (P.res x))
    (hjac : ∀ x, x.length = sub.freeVariables.length → (∀ id ∈ sub.expressions, ∀ e, sub.allExpressions[id]? = some e → SmoothAt e (e.variableIndices.map (sub.valueOf x))) →
      ∀ row < P.m, ∀ c < P.n, HasDerivAt (fun s => (P.res (x.set c s)).getD row 0) (P.jac x row c) (x.getD c 0))
    {K : ℝ} (hK : 0 < K) (hnK : sub.freeVariables.length ≤ K) : ∃ A, P.Affine A (1 / K ^ 2) (4 * sub.expressions.length) := by
  obtain ⟨m, n, res, jac⟩ := P
  simp only at hm hn
  subst hm hn
  let a := fun r => slotOf sub.freeVariables sub.freeVariables.length (fst r)
  let b := fun r => slotOf sub.freeVariables sub.freeVariables.length (snd r)
  let y := fun (x : List ℝ) (c : Fin sub.freeVariables.length) => x.getD c 0 - sol (sub.freeVariables.getD c 0)
  let A : Nat → Nat → ℝ := fun r c => if h : c < sub.freeVariables.length then incidence a b r ⟨c, h⟩ else 0
  have hA : ∀ (r : Nat) (f : Nat → ℝ), ∑ c ∈ Finset.range sub.freeVariables.length, A r c * f c = ∑ c : Fin sub.freeVariables.length, incidence a b r c * f c := by
    intro r f
    rw [← Fin.sum_univ_eq_sum_range (fun c => A r c * f c)]
    exact Finset.sum_congr rfl fun c _ => by simp only [A, dif_pos c.2]
  have hlen : ∀ x, x.length = sub.freeVariables.length → (res x).length = sub.expressions.length := by
    intro x hx
    obtain ⟨rs, h1, h2, -⟩ := residuals_total hok hx
    rw [hres x hx] at h1
    cases h1
    exact h2
  have hval : ∀ x, x.length = sub.freeVariables.length → ∀ r < sub.expressions.length, (res x).getD r 0 = grounded (y x) (b r) - grounded (y x) (a r) := by
    intro x hx r hr
    obtain ⟨rs, h1, h2, h3⟩ := residuals_total hok hx
    rw [hres x hx] at h1
    cases h1
    have hid := List.getElem?_eq_getElem hr
    obtain ⟨q, h4, h5⟩ := h3 r _ _ hid (heq r _ hid)
    rw [List.getD_eq_getElem?_getD, h5, Option.getD_some, equality_residual h4]
    obtain ⟨h6, h7⟩ := hsol r hr
    have h8 := valueOf_grounded (x := x) (h7 _ (.inl rfl))
    have h9 := valueOf_grounded (x := x) (h7 _ (.inr rfl))
    simp only [a, b, y]
    rw [← h8, ← h9, h6]
    ring
  have hstep : ∀ x δ : List ℝ, x.length = sub.freeVariables.length → δ.length = sub.freeVariables.length → ∀ r < sub.expressions.length,
      (res (Fitting.add x δ)).getD r 0 = (res x).getD r 0 + ∑ c ∈ Finset.range sub.freeVariables.length, A r c * δ.getD c 0 := by
    intro x δ hx hδ r hr
    rw [hval _ (Fitting.add_length hx hδ) r hr, hval x hx r hr, hA r fun c => δ.getD c 0, incidence_sum]
    have key : ∀ o, grounded (y (Fitting.add x δ)) o = grounded (y x) o + grounded (fun c : Fin sub.freeVariables.length => δ.getD c 0) o := by
      intro o
      cases o with
      | none => simp [grounded]
      | some c =>
        have h1 : c.1 < x.length := by rw [hx]; exact c.2
        have h2 : c.1 < δ.length := by rw [hδ]; exact c.2
        simp only [grounded, y, Fitting.add, List.getD_eq_getElem?_getD, List.getElem?_zipWith, List.getElem?_eq_getElem h1, List.getElem?_eq_getElem h2, Option.getD_some]
        ring
    rw [key, key]
    ring
  refine ⟨A, ⟨hlen, fun x hx r hr c hc => ?_, hstep, fun x hx => ?_, fun δ hδ => ?_⟩⟩
  · have hx : x.length = sub.freeVariables.length := hx
    have h1 := hjac x hx (fun id hid e he => by
      obtain ⟨r', hr'⟩ := List.mem_iff_getElem?.1 hid
      rw [heq r' id hr'] at he
      cases he
      simp [SmoothAt, Expr.variableIndices]) r hr c hc
    simp only at hr hc h1 ⊢
    have h2 : HasDerivAt (fun s => (res (x.set c s)).getD r 0) (A r c) (x.getD c 0) := by
      have h3 : (fun s => (res (x.set c s)).getD r 0) = fun s => (res x).getD r 0 + A r c * (s - x.getD c 0) := by
        funext s
        have h4 : x.set c s = Fitting.add x ((List.replicate sub.freeVariables.length (0 : ℝ)).set c (s - x.getD c 0)) := by
          apply List.ext_getElem?
          intro i
          rw [Fitting.add, List.getElem?_zipWith, List.getElem?_set, List.getElem?_set]
          by_cases hic : c = i
          · subst hic
            have h5 : c < x.length := by rw [hx]; exact hc
            simp [h5, hc, List.getElem?_eq_getElem h5, List.getD_eq_getElem?_getD]
          · simp only [if_neg hic]
            by_cases hi : i < x.length
            · rw [List.getElem?_eq_getElem hi, List.getElem?_replicate, if_pos (by rw [← hx]; exact hi)]
              simp
            · rw [List.getElem?_eq_none (by omega)]
        rw [h4, hstep x _ hx (by simp) r hr]
        congr 1
        rw [Finset.sum_eq_single c]
        · congr 1
          rw [List.getD_eq_getElem?_getD, List.getElem?_set, if_pos rfl, if_pos (by simpa using hc)]
          rfl
        · intro c' _ hne
          rw [List.getD_eq_getElem?_getD, List.getElem?_set, if_neg (Ne.symm hne), List.getElem?_replicate]
          split <;> simp
        · intro h5
          exact absurd (Finset.mem_range.2 hc) h5
      rw [h3]
      simpa using (((hasDerivAt_id (x.getD c 0)).sub_const (x.getD c 0)).const_mul (A r c)).const_add ((res x).getD r 0)
    exact h1.unique h2
  · have h1 := incidence_steep (m := sub.expressions.length) a b (y x)
    have h2 : Fitting.cost ⟨sub.expressions.length, sub.freeVariables.length, res, jac⟩ x = ∑ e ∈ Finset.range sub.expressions.length, (grounded (y x) (b e) - grounded (y x) (a e)) ^ 2 := by
      rw [Fitting.cost, squares_eq_sum, hlen x hx]
      exact Finset.sum_congr rfl fun r hr => by rw [hval x hx r (Finset.mem_range.1 hr)]
    have h3 : ∑ c ∈ Finset.range sub.freeVariables.length, (∑ r ∈ Finset.range sub.expressions.length, A r c * (res x).getD r 0) ^ 2 =
        ∑ c : Fin sub.freeVariables.length, (∑ e ∈ Finset.range sub.expressions.length, incidence a b e c * (grounded (y x) (b e) - grounded (y x) (a e))) ^ 2 := by
      rw [← Fin.sum_univ_eq_sum_range (fun c => (∑ r ∈ Finset.range sub.expressions.length, A r c * (res x).getD r 0) ^ 2)]
      refine Finset.sum_congr rfl fun c _ => ?_
      congr 1
      refine Finset.sum_congr rfl fun r hr => ?_
      rw [hval x hx r (Finset.mem_range.1 hr)]
      simp only [A, dif_pos c.2]
    show 1 / K ^ 2 * Fitting.cost _ x ≤ ∑ c ∈ Finset.range sub.freeVariables.length, (∑ r ∈ Finset.range sub.expressions.length, A r c * (res x).getD r 0) ^ 2
    rw [h2, h3, div_mul_eq_mul_div, one_mul, div_le_iff₀ (by positivity), mul_comm]
    refine h1.trans (mul_le_mul_of_nonneg_right ?_ (Finset.sum_nonneg fun _ _ => sq_nonneg _))
    exact pow_le_pow_left₀ (by positivity) hnK 2
  · have h1 := incidence_norm (m := sub.expressions.length) a b (fun c : Fin sub.freeVariables.length => δ.getD c 0)
    show ∑ r ∈ Finset.range sub.expressions.length, (∑ c ∈ Finset.range sub.freeVariables.length, A r c * δ.getD c 0) ^ 2 ≤ _
    simp only at hδ
    rw [squares_eq_sum, hδ, ← Fin.sum_univ_eq_sum_range (fun c => δ.getD c 0 ^ 2)]
    simp only [hA]
    exact h1

/-- Levenberg–Marquardt solves a subproblem of equalities that has a solution. -/
theorem lm_equalities (cast : ℝ → Int) {sort : SortByKey} (hsort : Spec.Sorts sort) {sub : Subsystem ℝ} (hok : sub.Ok)
    (hfit : Spec.FitsWorkspace sub.expressions.length sub.freeVariables.length (sub.pattern.length + sub.freeVariables.length)) {fst snd : Nat → Nat}
    (heq : ∀ (r id : Nat), sub.expressions[r]? = some id → sub.allExpressions[id]? = some (Expr.variableVariableEquality (fst r) (snd r)))
    {sol : Nat → ℝ} (hsol : ∀ r < sub.expressions.length, sol (fst r) = sol (snd r) ∧ ∀ v, (v = fst r ∨ v = snd r) → v ∉ sub.freeVariables → sub.systemVariables.getD v 0 = sol v)
    {K : ℝ} (hK : 0 < K) (hK' : K ≤ 1000) (hnK : sub.freeVariables.length ≤ K) (hm : sub.expressions.length ≤ 1000)
    {x : List ℝ} (hx : x.length = sub.freeVariables.length) (hbound : ∀ r < sub.expressions.length, ∀ v, (v = fst r ∨ v = snd r) → |sub.valueOf x v| ≤ 10 ^ 100)
    {ε : ℝ} (hε : 0 ≤ ε) (hε' : max (1 / 10 ^ 8) (Fitting.tinyCost (1 / K ^ 2) (4 * sub.expressions.length)) ≤ ε ^ 2) :
    ∃ x', x'.length = sub.freeVariables.length ∧ (∃ k, ∀ fuel, k ≤ fuel → levenbergMarquardt sub.problem (qrLeastSquares sort (colamdOfStructure cast)) fuel x = .ok x') ∧
      ∃ r, sub.calculateResiduals x' = .ok r ∧ ∀ y ∈ r, |y| ≤ ε := by
  obtain ⟨P, h1, h2, h3, h4, h5⟩ := C66_subproblems cast hsort hok hfit
  obtain ⟨A, h6⟩ := Subsystem.affine hok heq hsol h1 h2 h3 h4 hK hnK
  obtain ⟨x', k, h7, h8⟩ := h5 x hx
  have hcost : P.cost x ≤ 10 ^ 500 := by
    obtain ⟨rs, h9, h10, h11⟩ := residuals_total hok hx
    rw [h3 x hx] at h9
    have h9 : P.res x = rs := by injection h9
    rw [Fitting.cost, squares_eq_sum, h9, h10]
    have h12 : ∀ r ∈ Finset.range sub.expressions.length, rs.getD r 0 ^ 2 ≤ (10 : ℝ) ^ 202 := by
      intro r hr
      have hr := Finset.mem_range.1 hr
      have hid := List.getElem?_eq_getElem hr
      obtain ⟨q, h13, h14⟩ := h11 r _ _ hid (heq r _ hid)
      rw [List.getD_eq_getElem?_getD, h14, Option.getD_some, equality_residual h13]
      have h15 := hbound r hr _ (.inl rfl)
      have h16 := hbound r hr _ (.inr rfl)
      generalize sub.valueOf x (fst r) = u at *
      generalize sub.valueOf x (snd r) = w at *
      have h17 : |w - u| ≤ 10 ^ 101 := by
        have := abs_sub w u
        have h18 : (10 : ℝ) ^ 101 = 10 * 10 ^ 100 := by rw [pow_succ]; ring
        have h19 : (0 : ℝ) ≤ 10 ^ 100 := by positivity
        rw [h18]
        linarith
      have h18 : (10 : ℝ) ^ 202 = (10 ^ 101) ^ 2 := by rw [← pow_mul]
      rw [h18]
      exact sq_le_sq' (neg_le_of_abs_le h17) (le_of_abs_le h17)
    refine (Finset.sum_le_sum h12).trans ?_
    rw [Finset.sum_const, Finset.card_range, nsmul_eq_mul]
    have h13 : (sub.expressions.length : ℝ) ≤ 10 ^ 3 := by norm_num; exact_mod_cast hm
    calc (sub.expressions.length : ℝ) * 10 ^ 202 ≤ 10 ^ 3 * 10 ^ 202 := mul_le_mul_of_nonneg_right h13 (by positivity)
      _ = 10 ^ 205 := by rw [← pow_add]
      _ ≤ 10 ^ 500 := pow_le_pow_right₀ (by norm_num) (by norm_num)
  have hκ : (1 : ℝ) / 10 ^ 6 ≤ 1 / K ^ 2 := by
    refine one_div_le_one_div_of_le (by positivity) ?_
    nlinarith
  obtain ⟨h9, h10⟩ := h6.run hκ (by positivity) (hx.trans h2.symm) hcost h7
  have hx' : x'.length = sub.freeVariables.length := h9.trans h2
  refine ⟨x', hx', ⟨k, h8⟩, P.res x', h3 x' hx', fun y hy => ?_⟩
  have h11 : y ^ 2 ≤ ε ^ 2 := by
    refine le_trans ?_ (h10.trans hε')
    rw [Fitting.cost, squares]
    exact List.single_le_sum (by simp only [List.mem_map]; rintro _ ⟨t, -, rfl⟩; positivity) _ (List.mem_map_of_mem hy)
  exact abs_le_of_sq_le_sq h11 hε

/-! ## Perturbation -/

theorem perturb_bound : ∀ (l : List Nat) (st st' : SolveState ℝ), l.Nodup → l.foldlM perturbVariable st = .ok st' →
    (∀ v ∈ l, |st'.transformed.getD v 0| ≤ 2 * |st.transformed.getD v 0| + 1) ∧ ∀ v, v ∉ l → st'.transformed[v]? = st.transformed[v]? := by
  intro l
  induction l with
  | nil => intro st st' _ h; cases h; exact ⟨by simp, fun _ _ => rfl⟩
  | cons a l ih =>
    intro st st' hn h
    rw [List.nodup_cons] at hn
    rw [List.foldlM_cons, bind_eq_ok] at h
    obtain ⟨st1, h1, h2⟩ := h
    obtain ⟨h3, h4⟩ := ih st1 st' hn.2 h2
    rw [perturbVariable, bind_eq_ok] at h1
    obtain ⟨x, h5, h1⟩ := h1
    simp only at h1
    rw [bind_eq_ok] at h1
    obtain ⟨T, h6, h1⟩ := h1
    cases h1
    rw [idx_eq_ok] at h5
    rw [setIdx_eq_ok] at h6
    obtain ⟨h7, rfl⟩ := h6
    simp only at h3 h4
    have hne : ∀ v, v ≠ a → (st.transformed.set a (x + (x * (1 / FloatOps.ofNat 8196) * (rngNextF64 (F := ℝ) st.rng).1 + (1 / FloatOps.ofNat 65568) * (rngNextF64 (F := ℝ) (rngNextF64 (F := ℝ) st.rng).2).1)))[v]? = st.transformed[v]? :=
      fun v hv => List.getElem?_set_ne (Ne.symm hv)
    refine ⟨fun v hv => ?_, fun v hv => ?_⟩
    · rcases List.mem_cons.1 hv with rfl | hv
      · rw [List.getD_eq_getElem?_getD, h4 v hn.1, List.getElem?_set_self h7, List.getD_eq_getElem?_getD, h5, Option.getD_some, Option.getD_some]
        have r1 : 0 ≤ (rngNextF64 (F := ℝ) st.rng).1 ∧ (rngNextF64 (F := ℝ) st.rng).1 ≤ 1 := C28_unit_interval st.rng 1 _ (List.mem_cons_self ..)
        have r2 : 0 ≤ (rngNextF64 (F := ℝ) (rngNextF64 (F := ℝ) st.rng).2).1 ∧ (rngNextF64 (F := ℝ) (rngNextF64 (F := ℝ) st.rng).2).1 ≤ 1 :=
          C28_unit_interval (rngNextF64 (F := ℝ) st.rng).2 1 _ (List.mem_cons_self ..)
        generalize (rngNextF64 (F := ℝ) (rngNextF64 (F := ℝ) st.rng).2).1 = t at *
        generalize (rngNextF64 (F := ℝ) st.rng).1 = s at *
        have e1 : (FloatOps.ofNat 8196 : ℝ) = 8196 := by norm_num [FloatOps.ofNat, instRealOps]
        have e2 : (FloatOps.ofNat 65568 : ℝ) = 65568 := by norm_num [FloatOps.ofNat, instRealOps]
        rw [e1, e2]
        have h8 : |x * (1 / 8196) * s| ≤ |x| := by
          rw [abs_mul, abs_mul, abs_of_nonneg r1.1, abs_of_pos (show (0 : ℝ) < 1 / 8196 by norm_num)]
          nlinarith [abs_nonneg x, mul_nonneg (abs_nonneg x) r1.1, mul_le_of_le_one_right (abs_nonneg x) r1.2]
        have h9 : |1 / 65568 * t| ≤ 1 := by
          rw [abs_mul, abs_of_nonneg r2.1, abs_of_pos (show (0 : ℝ) < 1 / 65568 by norm_num)]
          linarith [r2.2]
        have h10 := abs_add_le x (x * (1 / 8196) * s + 1 / 65568 * t)
        have h11 := abs_add_le (x * (1 / 8196) * s) (1 / 65568 * t)
        linarith
      · have hva : v ≠ a := fun hc => hn.1 (hc ▸ hv)
        have h8 := h3 v hv
        rwa [List.getD_eq_getElem?_getD (l := List.set _ _ _), hne v hva, ← List.getD_eq_getElem?_getD] at h8
    · rw [List.mem_cons, not_or] at hv
      rw [h4 v hv.2, hne v hv.1]

theorem perturbFree_bound {opts : SolvingOptions} {free : Finset Nat} {st st' : SolveState ℝ} (h : perturbFree opts free st = .ok st') :
    (∀ v, |st'.transformed.getD v 0| ≤ 2 * |st.transformed.getD v 0| + 1) ∧ ∀ v, v ∉ free → st'.transformed[v]? = st.transformed[v]? := by
  unfold perturbFree at h
  split at h
  · obtain ⟨h1, h2⟩ := perturb_bound _ _ _ (ascending_nodup free) h
    have h3 : ∀ v, v ∉ free → st'.transformed[v]? = st.transformed[v]? := fun v hv => h2 v (fun hc => hv ((mem_ascending _ _).1 hc))
    refine ⟨fun v => ?_, h3⟩
    by_cases hv : v ∈ free
    · exact h1 v ((mem_ascending _ _).2 hv)
    · rw [List.getD_eq_getElem?_getD, h3 v hv, ← List.getD_eq_getElem?_getD]
      linarith [abs_nonneg (st.transformed.getD v 0)]
  · cases h
    exact ⟨fun v => by linarith [abs_nonneg (st.transformed.getD v 0)], fun _ _ => rfl⟩

/-- The scaled values are not large. -/
theorem scaled_bound (s : System ℝ) (hs : 0 < s.scale) (v : Nat) :
    |s.scaledVariables.getD v 0| ≤ (s.vars.length + s.expressions.length : ℕ) := by
  rw [System.scaledVariables, List.getD_eq_getElem?_getD, List.getElem?_map]
  cases hv : s.vars[v]? with
  | none => simp only [Option.map_none, Option.getD_none, abs_zero]; positivity
  | some x =>
    simp only [Option.map_some, Option.getD_some]
    have hx : x ∈ s.vars ++ s.expressions.filterMap Expr.lengthParameter := List.mem_append_left _ (List.mem_of_getElem? hv)
    have hlen : (s.vars ++ s.expressions.filterMap Expr.lengthParameter).length ≤ s.vars.length + s.expressions.length := by
      rw [List.length_append]
      have := List.length_filterMap_le Expr.lengthParameter s.expressions
      omega
    have h1 : s.scale ^ 2 * (s.vars ++ s.expressions.filterMap Expr.lengthParameter).length = sumSquares (s.vars ++ s.expressions.filterMap Expr.lengthParameter) := by
      have h2 : s.scale = √(sumSquares (s.vars ++ s.expressions.filterMap Expr.lengthParameter) / ((s.vars ++ s.expressions.filterMap Expr.lengthParameter).length : ℝ)) := rfl
      have h3 : 0 < ((s.vars ++ s.expressions.filterMap Expr.lengthParameter).length : ℝ) := by exact_mod_cast List.length_pos_of_mem hx
      rw [h2, Real.sq_sqrt (div_nonneg (by rw [sumSquares_real]; exact List.sum_nonneg (by simp only [List.mem_map]; rintro _ ⟨t, -, rfl⟩; positivity)) h3.le)]
      field_simp
    have h2 : x ^ 2 ≤ sumSquares (s.vars ++ s.expressions.filterMap Expr.lengthParameter) := by
      rw [sumSquares_real]
      exact List.single_le_sum (by simp only [List.mem_map]; rintro _ ⟨t, -, rfl⟩; positivity) _ (List.mem_map_of_mem hx)
    have h3 : (1 : ℝ) ≤ (s.vars ++ s.expressions.filterMap Expr.lengthParameter).length := by exact_mod_cast List.length_pos_of_mem hx
    have h4 : ((s.vars ++ s.expressions.filterMap Expr.lengthParameter).length : ℝ) ≤ (s.vars.length + s.expressions.length : ℕ) := by exact_mod_cast hlen
    refine le_trans ?_ h4
    refine abs_le_of_sq_le_sq ?_ (by linarith)
    generalize ((s.vars ++ s.expressions.filterMap Expr.lengthParameter).length : ℝ) = L at *
    have h5 : (x * (1 / s.scale)) ^ 2 = x ^ 2 / s.scale ^ 2 := by field_simp
    rw [h5, div_le_iff₀ (by positivity)]
    rw [← h1] at h2
    have h6 : 0 ≤ s.scale ^ 2 := by positivity
    nlinarith [mul_nonneg h6 (sub_nonneg.2 h3)]

/-! ## Systems of coincidences -/

/-- All constraints are coincidences of points. -/
def Spec.Store.OnlyCoincidences (st : Store ℝ) : Prop := ∀ con ∈ st.cons, ∃ p q, con = .pointPointCoincidence p q

/-- There are places for the points, with the fixed points where they are, at which all coincidences hold. -/
def Spec.Store.Placeable (st : Store ℝ) : Prop := ∃ place : Nat → ℝ × ℝ,
  (∀ i ∈ st.fixed, ∀ x y, st.elems[i]? = some (.point x y) → place i = (x, y)) ∧ ∀ p q, Spec.Con.pointPointCoincidence p q ∈ st.cons → place p = place q

section
variable {counter : Nat} {ops : List (Op ℝ)} {c : Client ℝ} (h : Reaches counter ops c)
include h

/-- What the equations of a system of coincidences are, in terms of a solution of the system: variables of the system and values of the variables. -/
theorem Reaches.coincidence_solution (hco : ((Store.empty ℝ).run ops).OnlyCoincidences) (hpl : ((Store.empty ℝ).run ops).Placeable) : ∃ sol : Nat → ℝ,
    (∀ id < c.sys.expressions.length, ∃ a b, c.sys.scaledExpressions[id]? = some (Expr.variableVariableEquality a b) ∧ sol a = sol b ∧
      ∀ v, (v = a ∨ v = b) → v < c.sys.vars.length ∧ (v ∈ c.sys.fixedVariables → c.sys.scaledVariables.getD v 0 = sol v)) := by
  have hr := h.crel.rel
  obtain ⟨place, hp1, hp2⟩ := hpl
  refine ⟨fun v => (match c.sys.variableToPrimitive[v]? with
    | some i => if v = off ((Store.empty ℝ).run ops).elems i then (place i).1 else (place i).2
    | none => 0) * (1 / c.sys.scale), fun id hid => ?_⟩
  have hmem := List.getElem_mem hid
  have hget := List.getElem?_eq_getElem hid
  generalize c.sys.expressions[id] = e at *
  rw [hr.exprs, List.mem_flatMap] at hmem
  obtain ⟨con, hcon, hex⟩ := hmem
  obtain ⟨p, q, rfl⟩ := hco con hcon
  have hok := hr.wfCon _ hcon
  simp only [Store.ConOk] at hok
  have hpq := hp2 p q hcon
  -- the two variables of a point
  have key : ∀ i, ((Store.empty ℝ).run ops).IsPoint i → ∀ j < 2,
      c.sys.variableToPrimitive[off ((Store.empty ℝ).run ops).elems i + j]? = some i ∧ off ((Store.empty ℝ).run ops).elems i + j < c.sys.vars.length ∧
      ∀ x y, ((Store.empty ℝ).run ops).elems[i]? = some (.point x y) → c.sys.vars[off ((Store.empty ℝ).run ops).elems i + j]? = some (if j = 0 then x else y) := by
    rintro i ⟨x, y, hi⟩ j hj
    have h1 : ∀ x y, ((Store.empty ℝ).run ops).elems[i]? = some (.point x y) → c.sys.vars[off ((Store.empty ℝ).run ops).elems i + j]? = some (if j = 0 then x else y) := by
      intro x y hi
      rw [hr.vars, var_at _ (j := j) hi (by simpa [elemValues] using hj)]
      have : j = 0 ∨ j = 1 := by omega
      rcases this with rfl | rfl <;> rfl
    refine ⟨?_, lt_of_getElem? (h1 x y hi), h1⟩
    obtain ⟨i', h2, h3⟩ := hr.owner_of_var (hr.element_at hi) (v := off ((Store.empty ℝ).run ops).elems i + j) (by
      have : j = 0 ∨ j = 1 := by omega
      rcases this with rfl | rfl <;> simp [encElem, EncodedElement.variableIndices])
    rw [Store.primitives, hi] at h2
    have : i' = i := by simpa using h2
    rw [this] at h3
    exact h3
  have main : ∀ j < 2, e = Expr.variableVariableEquality (off ((Store.empty ℝ).run ops).elems p + j) (off ((Store.empty ℝ).run ops).elems q + j) →
      ∃ a b, c.sys.scaledExpressions[id]? = some (Expr.variableVariableEquality a b) ∧
        (match c.sys.variableToPrimitive[a]? with
          | some i => if a = off ((Store.empty ℝ).run ops).elems i then (place i).1 else (place i).2
          | none => 0) * (1 / c.sys.scale) =
        (match c.sys.variableToPrimitive[b]? with
          | some i => if b = off ((Store.empty ℝ).run ops).elems i then (place i).1 else (place i).2
          | none => 0) * (1 / c.sys.scale) ∧
        ∀ v, (v = a ∨ v = b) → v < c.sys.vars.length ∧ (v ∈ c.sys.fixedVariables → c.sys.scaledVariables.getD v 0 =
          (match c.sys.variableToPrimitive[v]? with
          | some i => if v = off ((Store.empty ℝ).run ops).elems i then (place i).1 else (place i).2
          | none => 0) * (1 / c.sys.scale)) := by
    intro j hj he
    have hfix : ∀ i, ((Store.empty ℝ).run ops).IsPoint i → off ((Store.empty ℝ).run ops).elems i + j ∈ c.sys.fixedVariables →
        c.sys.scaledVariables.getD (off ((Store.empty ℝ).run ops).elems i + j) 0 = (if off ((Store.empty ℝ).run ops).elems i + j = off ((Store.empty ℝ).run ops).elems i then (place i).1 else (place i).2) * (1 / c.sys.scale) := by
      intro i hi hf
      obtain ⟨h1, -, h3⟩ := key i hi j hj
      obtain ⟨i', h4, h5⟩ := (hr.fixed _).1 hf
      rw [h1] at h5
      cases h5
      obtain ⟨x, y, hi⟩ := hi
      rw [System.scaledVariables, List.getD_eq_getElem?_getD, List.getElem?_map, h3 x y hi, hp1 i h4 x y hi]
      have : j = 0 ∨ j = 1 := by omega
      rcases this with rfl | rfl <;> simp
    refine ⟨_, _, by rw [System.scaledExpressions, List.getElem?_map, hget, he]; rfl, ?_, ?_⟩
    · rw [(key p hok.1 j hj).1, (key q hok.2 j hj).1]
      simp only [hpq]
      congr 1
      simp
    · rintro v (rfl | rfl)
      · refine ⟨(key p hok.1 j hj).2.1, fun hf => ?_⟩
        rw [(key p hok.1 j hj).1]
        exact hfix p hok.1 hf
      · refine ⟨(key q hok.2 j hj).2.1, fun hf => ?_⟩
        rw [(key q hok.2 j hj).1]
        exact hfix q hok.2 hf
  simp only [encCon, List.mem_cons, List.not_mem_nil, or_false] at hex
  rcases hex with hex | hex
  · exact main 0 (by omega) hex
  · exact main 1 (by omega) hex

omit h in
theorem valueOf_start {T : List ℝ} {exprs : List (Expr ℝ)} {es free : List Nat} {x : List ℝ} (hx : free.mapM (idx T) = .ok x) (v : Nat) :
    (⟨T, exprs, es, free⟩ : Subsystem ℝ).valueOf x v = T.getD v 0 := by
  unfold Subsystem.valueOf
  cases hk : free.idxOf? v with
  | none => simp only [hk]
  | some k =>
    simp only [hk]
    obtain ⟨hlt, h1, -⟩ := List.idxOf?_eq_some_iff.1 hk
    have h2 := (mapM_forall hx)
    have h3 : ∃ y, x[k]? = some y ∧ idx T v = .ok y := by
      obtain ⟨hl, h4⟩ := List.forall₂_iff_get.1 h2
      have h5 := h4 k hlt (by omega)
      refine ⟨_, List.getElem?_eq_getElem (by omega), ?_⟩
      simp only [List.get_eq_getElem] at h5
      rw [h1] at h5
      exact h5
    obtain ⟨y, h4, h5⟩ := h3
    rw [idx_eq_ok] at h5
    rw [List.getD_eq_getElem?_getD, h4, List.getD_eq_getElem?_getD, h5]

/-- The scaled values that the components in `l` will read are those from the start. -/
structure SolveState.Fresh (s : System ℝ) (l : List (Component × Nat)) (st : SolveState ℝ) : Prop where
  sized : st.Sized s.vars.length
  fresh : ∀ v, (v ∈ s.fixedVariables ∨ ∃ ck ∈ l, s.VarOf ck.1.elements v) → st.transformed[v]? = s.scaledVariables[v]?

variable (hn : NeverJoins ((Store.empty ℝ).run ops).arguments) (hnz : ((Store.empty ℝ).run ops).NonZero)
  (hco : ((Store.empty ℝ).run ops).OnlyCoincidences) (hpl : ((Store.empty ℝ).run ops).Placeable) (hshort : ops.length < 500)
include hn hnz hco hpl hshort

theorem Reaches.coincidences_component (cast : ℝ → Int) {sort : SortByKey} (hsort : Spec.Sorts sort) {lim : Problem ℝ → List ℝ → R (List ℝ)}
    (hlim : ∀ p x, Settles (fun fuel => levenbergMarquardt p (qrLeastSquares sort (colamdOfStructure cast)) fuel x) (lim p x)) {opt : Optimize ℝ}
    (hopt : opt .levenbergMarquardt = lim) {ord : HashOrder} {opts : SolvingOptions}
    (hd : opts.decomposer = .none) (ho : opts.optimizer = .levenbergMarquardt) {ε : ℝ} (hε : max (1 / 10 ^ 4) (((ops.length : ℝ) + 5) / 10 ^ 6) ≤ ε)
    {ck : Component × Nat} {l : List (Component × Nat)} (hcomp : ck.1 ∈ c.sys.graph.components)
    (hdis : ∀ v, c.sys.VarOf ck.1.elements v → ∀ ck' ∈ l, ¬ c.sys.VarOf ck'.1.elements v) {st : SolveState ℝ} (hst : st.Fresh c.sys (ck :: l)) :
    ∃ st', solveComponent (opt.checked ε) ord opts c.sys c.sys.scale c.sys.scaledExpressions st ck = .ok st' ∧ st'.Fresh c.sys l := by
  have hr := h.crel.rel
  obtain ⟨hsize1, hsize2⟩ := run_size (Store.empty ℝ) ops h.legal
  have hsize3 : (Store.empty ℝ).elems.length = 0 := rfl
  have hsize4 : (Store.empty ℝ).cons.length = 0 := rfl
  have hvl := hr.vars_length_le
  have hel : c.sys.expressions.length ≤ 2 * ((Store.empty ℝ).run ops).cons.length := by
    rw [hr.exprs]; exact exprs_length_le _ _
  have hscale := h.scale_pos hnz
  unfold solveComponent
  split
  · exact ⟨st, rfl, hst.sized, fun v hv => hst.fresh v (hv.imp_right fun ⟨ck', h1, h2⟩ => ⟨ck', List.mem_cons_of_mem _ h1, h2⟩)⟩
  obtain ⟨free, h1⟩ := h.freeVariables_ok hcomp
  have hf := freeVariables_spec h1
  have hflt : ∀ v ∈ free, v < c.sys.vars.length := fun v hv => h.varOf_lt ((hf v).1 hv).1
  obtain ⟨st1, h2, h3⟩ := perturbFree_ok (opts := opts) hst.sized hflt
  obtain ⟨hb1, hb2⟩ := perturbFree_bound h2
  rw [h1, ok_bind, h2, ok_bind, hd]
  simp only
  have hcons : ∀ n ∈ ascending ck.1.constraints, n < ((Store.empty ℝ).run ops).cons.length := fun n hn => by
    have h4 := (h.decomposeOk hcomp).edges n ((mem_ascending _ _).1 hn)
    have h5 : c.sys.graph.constraints.length = ((Store.empty ℝ).run ops).cons.length := by rw [hr.graphCons]; simp
    simpa [DCtx.nC, Graph.toD, h5] using h4
  obtain ⟨es, h4⟩ := mapM_ok_exists (f := c.sys.constraintExpressions) (l := ascending ck.1.constraints)
    (fun n hn => hr.constraintExpressions_ok (hcons n hn))
  have heq : ∀ id ∈ es.flatten, id < c.sys.expressions.length ∧ c.sys.ReadsWithin ck.1.elements id := by
    intro id hid
    obtain ⟨n, h5, h6⟩ := (mem_flatten_of_mapM hr h4 id).1 hid
    exact ⟨h.equation_lt h6, h.whole_within hn hcomp ((mem_ascending _ _).1 h5) h6⟩
  have hf' : ∀ v ∈ ascending free, v < c.sys.vars.length := fun v hv => hflt v ((mem_ascending _ _).1 hv)
  obtain ⟨values, h5, h6⟩ := mapM_idx_ok (l := st1.transformed) (is := ascending free) (by rw [h3.2]; exact hf')
  have hm : es.flatten.length ≤ c.sys.expressions.length := length_le_of_lt (flatten_nodup_of_mapM hr (ascending_nodup _) h4) fun id hid => (heq id hid).1
  have hk : (ascending free).length ≤ c.sys.vars.length := length_le_of_lt (ascending_nodup _) hf'
  have hok : Subsystem.Ok ⟨st1.transformed, c.sys.scaledExpressions, es.flatten, ascending free⟩ := by
    intro id hid
    rw [h3.2]
    exact h.exprsOk (fun id hid => (heq id hid).1) id hid
  obtain ⟨sol, hsol⟩ := h.coincidence_solution hco hpl
  have hrow : ∀ r : Nat, ∃ a b, ∀ id, es.flatten[r]? = some id → c.sys.scaledExpressions[id]? = some (Expr.variableVariableEquality a b) ∧ sol a = sol b ∧
      ∀ v, (v = a ∨ v = b) → c.sys.VarOf ck.1.elements v ∧ (v ∈ c.sys.fixedVariables → c.sys.scaledVariables.getD v 0 = sol v) := by
    intro r
    cases hid : es.flatten[r]? with
    | none => exact ⟨0, 0, by simp⟩
    | some id =>
      obtain ⟨h7, h8⟩ := heq id (List.mem_of_getElem? hid)
      obtain ⟨a, b, h9, h10, h11⟩ := hsol id h7
      refine ⟨a, b, fun id' hid' => ?_⟩
      cases hid'
      refine ⟨h9, h10, fun v hv => ⟨h8 _ h9 v (by simpa [Expr.variableIndices] using hv), (h11 v hv).2⟩⟩
  choose fst snd hfs using hrow
  have hN : (ops.length : ℝ) + 1 ≤ 500 := by exact_mod_cast hshort
  have hfresh : ∀ v, c.sys.VarOf ck.1.elements v → st.transformed[v]? = c.sys.scaledVariables[v]? := fun v hv => hst.fresh v (.inr ⟨ck, by simp, hv⟩)
  obtain ⟨x', h7, ⟨k, h8⟩, rs, h9, h10⟩ := lm_equalities cast hsort (sub := ⟨st1.transformed, c.sys.scaledExpressions, es.flatten, ascending free⟩) hok
    (h.fits (by omega) _ _ _ hm hk (Subsystem.size_le _)) (fst := fst) (snd := snd) (fun r id hid => (hfs r id hid).1) (sol := sol)
    (fun r hr => by
      obtain ⟨-, h7, h8⟩ := hfs r _ (List.getElem?_eq_getElem hr)
      refine ⟨h7, fun v hv hvf => ?_⟩
      obtain ⟨h9, h10⟩ := h8 v hv
      have hvf : v ∉ free := fun hc => hvf ((mem_ascending _ _).2 hc)
      have hfixed : v ∈ c.sys.fixedVariables := by
        by_contra hcon
        exact hvf ((hf v).2 ⟨h9, hcon⟩)
      show st1.transformed.getD v 0 = sol v
      rw [← h10 hfixed, List.getD_eq_getElem?_getD, hb2 v hvf, hfresh v h9, ← List.getD_eq_getElem?_getD])
    (K := 2 * ops.length + 2) (by positivity) (by linarith) (by
      have : (ascending free).length ≤ 2 * ops.length + 2 := by omega
      exact_mod_cast this) (by show es.flatten.length ≤ 1000; omega) (x := values) h6
    (fun r hr v hv => by
      obtain ⟨-, -, h8⟩ := hfs r _ (List.getElem?_eq_getElem hr)
      rw [valueOf_start h5]
      have h9 := hb1 v
      have h10 : st.transformed.getD v 0 = c.sys.scaledVariables.getD v 0 := by
        rw [List.getD_eq_getElem?_getD, hfresh v (h8 v hv).1, ← List.getD_eq_getElem?_getD]
      rw [h10] at h9
      have h11 := scaled_bound c.sys hscale v
      have h12 : ((c.sys.vars.length + c.sys.expressions.length : ℕ) : ℝ) ≤ 2000 := by
        have : c.sys.vars.length + c.sys.expressions.length ≤ 2000 := by omega
        exact_mod_cast this
      have h13 : (10 : ℝ) ^ 4 ≤ 10 ^ 100 := pow_le_pow_right₀ (by norm_num) (by norm_num)
      refine le_trans ?_ h13
      linarith)
    (ε := ε) (le_trans (by positivity) hε) (by
      have h11 : (0 : ℝ) ≤ ops.length := by positivity
      refine max_le ?_ ?_
      · have h12 := (le_max_left _ _).trans hε
        calc (1 : ℝ) / 10 ^ 8 = (1 / 10 ^ 4) ^ 2 := by norm_num
          _ ≤ ε ^ 2 := pow_le_pow_left₀ (by norm_num) h12 2
      · have h12 := (le_max_right _ _).trans hε
        have h13 : (((ops.length : ℝ) + 5) / 10 ^ 6) ^ 2 ≤ ε ^ 2 := pow_le_pow_left₀ (by positivity) h12 2
        refine le_trans ?_ h13
        have h14 : ((List.length es.flatten : ℕ) : ℝ) ≤ 2 * ops.length := by
          have : es.flatten.length ≤ 2 * ops.length := by omega
          exact_mod_cast this
        show Fitting.tinyCost _ (4 * (es.flatten.length : ℝ)) ≤ _
        rw [Fitting.tinyCost, div_pow, ← pow_mul]
        refine div_le_div_of_nonneg_right ?_ (by positivity)
        have h15 : 1 / (4 * (1 / (2 * (ops.length : ℝ) + 2) ^ 2)) = (ops.length + 1) ^ 2 := by
          have : (2 * (ops.length : ℝ) + 2) ≠ 0 := by positivity
          field_simp
          ring
        rw [h15]
        nlinarith)
  have h11 : opt.checked ε .levenbergMarquardt (⟨st1.transformed, c.sys.scaledExpressions, es.flatten, ascending free⟩ : Subsystem ℝ).problem values = .ok x' := by
    have h12 : lim (⟨st1.transformed, c.sys.scaledExpressions, es.flatten, ascending free⟩ : Subsystem ℝ).problem values = .ok x' := by
      obtain ⟨k', hk'⟩ := hlim (⟨st1.transformed, c.sys.scaledExpressions, es.flatten, ascending free⟩ : Subsystem ℝ).problem values
      rw [← hk' (max k k') (le_max_right _ _)]
      exact h8 _ (le_max_left _ _)
    rw [Optimize.checked, hopt, h12, ok_bind, if_pos ⟨rs, h9, h10⟩]
    rfl
  obtain ⟨vars, h12, h13⟩ := writeVars_ok (scale := c.sys.scale) (values := x') (l := (ascending free).zipIdx) (vars := st1.vars)
    (fun p hp => ⟨by rw [h3.1]; exact hf' _ (mem_zipIdx_fst hp), by rw [h7]; exact zipIdx_snd_lt hp⟩)
  refine ⟨⟨vars, st1.transformed, st1.rng, st1.calls ++ [es.flatten]⟩, ?_, ⟨h13.trans h3.1, h3.2⟩, fun v hv => ?_⟩
  · rw [solveWhole, h5, ok_bind, h4, ok_bind, ho]
    simp only [h11, ok_bind, h12]
    rfl
  · have hnf : v ∉ free := by
      intro hc
      obtain ⟨h14, h15⟩ := (hf v).1 hc
      rcases hv with hv | ⟨ck', h16, h17⟩
      · exact h15 hv
      · exact hdis v h14 ck' h16 h17
    show st1.transformed[v]? = _
    rw [hb2 v hnf]
    exact hst.fresh v (hv.imp_right fun ⟨ck', h1, h2⟩ => ⟨ck', List.mem_cons_of_mem _ h1, h2⟩)

theorem Reaches.coincidences_solved (cast : ℝ → Int) {sort : SortByKey} (hsort : Spec.Sorts sort) {lim : Problem ℝ → List ℝ → R (List ℝ)}
    (hlim : ∀ p x, Settles (fun fuel => levenbergMarquardt p (qrLeastSquares sort (colamdOfStructure cast)) fuel x) (lim p x)) {opt : Optimize ℝ}
    (hopt : opt .levenbergMarquardt = lim) {ord : HashOrder} {opts : SolvingOptions}
    (hd : opts.decomposer = .none) (ho : opts.optimizer = .levenbergMarquardt) {ε : ℝ} (hε : max (1 / 10 ^ 4) (((ops.length : ℝ) + 5) / 10 ^ 6) ≤ ε) :
    ∃ s', c.sys.solve (opt.checked ε) ord opts = .ok s' := by
  have key : ∀ (l : List (Component × Nat)) (st : SolveState ℝ), (∀ ck ∈ l, c.sys.graph.components[ck.2]? = some ck.1) → (l.map Prod.snd).Nodup → st.Fresh c.sys l →
      ∃ st', l.foldlM (solveComponent (opt.checked ε) ord opts c.sys c.sys.scale c.sys.scaledExpressions) st = .ok st' := by
    intro l
    induction l with
    | nil => intro st _ _ _; exact ⟨st, rfl⟩
    | cons ck l ih =>
      intro st h1 h2 h3
      rw [List.map_cons, List.nodup_cons] at h2
      have hck := h1 ck (by simp)
      obtain ⟨st1, h4, h5⟩ := h.coincidences_component hn hnz hco hpl hshort cast hsort hlim hopt (ord := ord) hd ho hε (List.mem_of_getElem? hck) (l := l)
        (fun v hv ck' hck' hv' => by
          obtain ⟨p, hp, el, h10, h11⟩ := hv
          obtain ⟨q, hq, el', h12, h13⟩ := hv'
          have hck2 := h1 ck' (by simp [hck'])
          have hpc := h.constrained_of_mem (List.mem_of_getElem? hck) hp
          have hpq := h.varOf_unique hpc (h.constrained_of_mem (List.mem_of_getElem? hck2) hq) h10 h12 h11 h13
          subst hpq
          obtain ⟨k0, -, h14⟩ := (C17_elements_partitioned h p).1 hpc
          refine h2.1 (List.mem_map.2 ⟨ck', hck', ?_⟩)
          exact (h14 ck'.2 ⟨ck'.1, hck2, hq⟩).trans (h14 ck.2 ⟨ck.1, hck, hp⟩).symm) h3
      obtain ⟨st', h6⟩ := ih st1 (fun ck hck => h1 ck (by simp [hck])) h2.2 h5
      exact ⟨st', by rw [List.foldlM_cons, h4, ok_bind, h6]⟩
  obtain ⟨st', h1⟩ := key c.sys.graph.components.zipIdx ⟨c.sys.vars, c.sys.scaledVariables, 42, []⟩ (fun ck hck => List.mem_zipIdx_iff_getElem?.1 hck)
    (by rw [List.zipIdx_map_snd]; exact List.nodup_range') ⟨⟨rfl, by simp [System.scaledVariables]⟩, fun _ _ => rfl⟩
  exact ⟨_, by rw [System.solve, System.solveLoop, h1, ok_bind]; rfl⟩

/-- C69: coincidences are solved from any start. After any legal history of fewer than 500 calls that has only made coincidences, which the fixed points allow, `solve` with
`Decomposer::None` and Levenberg–Marquardt (with the sparse QR of the crates) returns, and the points of every coincidence are where they should be, up to `√2·max(10⁻⁴, (N + 5)·10⁻⁶)`
in units of the scale of the system. -/
theorem C69_coincidences_solved_partial (cast : ℝ → Int) {sort : SortByKey} (hsort : Spec.Sorts sort) {ord : HashOrder} (hord : ord.Ok) {opts : SolvingOptions}
    (hd : opts.decomposer = .none) (ho : opts.optimizer = .levenbergMarquardt) :
    ∃ s' k, (∀ fuel, k ≤ fuel → c.sys.solve (crateOptimize (qrLeastSquares sort (colamdOfStructure cast)) fuel) ord opts = .ok s') ∧
      ∀ (n : Nat) hdl p q, c.conHandles[n]? = some hdl → ((Store.empty ℝ).run ops).cons[n]? = some (.pointPointCoincidence p q) →
        ∃ r, s'.calculateResidual .pointPointCoincidence hdl = .ok r ∧ |r| ≤ √2 * (c.sys.scale * max (1 / 10 ^ 4) (((ops.length : ℝ) + 5) / 10 ^ 6)) := by
  have hkeeps := fun (p : Problem ℝ) x => levenbergMarquardt_keeps p (qrLeastSquares sort (colamdOfStructure cast)) x
  choose lim hlim using fun p x => (hkeeps p x).settles
  let opt : Optimize ℝ := fun o p x => match o with | .levenbergMarquardt => lim p x | .lBfgs => .ok x
  obtain ⟨s', h1⟩ := h.coincidences_solved hn hnz hco hpl hshort cast hsort hlim (opt := opt) rfl (ord := ord) hd ho le_rfl
  obtain ⟨h2, h3⟩ := C62_all_calls_succeed_partial h hnz hn (le_max_of_le_left (by norm_num)) hord hd h1
  obtain ⟨k, hk⟩ := solve_settles (fam := crateOptimize (qrLeastSquares sort (colamdOfStructure cast))) (opts := opts)
    (lim := opt) (by rw [ho]; exact hlim) (fun hr => absurd hr (by rw [hd]; simp)) ord c.sys
  refine ⟨s', k, fun fuel hf => by rw [← h2]; exact hk fuel hf, fun n hdl p q h4 h5 => ?_⟩
  obtain ⟨r, h6, h7⟩ := h3 n hdl _ h4 h5
  refine ⟨r, h6, ?_⟩
  simpa [Spec.Con.lengthPower, Spec.Con.equations] using h7

end

/-! ## A case, and parts that are joined -/

/-- Three points, the last one fixed; the first coincides with the second, the second with the third. -/
noncomputable def gatherOps : List (Op ℝ) :=
  [.createPoint 0 0, .createPoint 3 4, .createPoint 1 7, .fix .point 2, .createCon (.pointPointCoincidence 0 1), .createCon (.pointPointCoincidence 1 2)]

/-- A case for C69. -/
example : ∃ c, Reaches 0 gatherOps c ∧ NeverJoins ((Store.empty ℝ).run gatherOps).arguments ∧ ((Store.empty ℝ).run gatherOps).NonZero ∧
    ((Store.empty ℝ).run gatherOps).OnlyCoincidences ∧ ((Store.empty ℝ).run gatherOps).Placeable ∧ gatherOps.length < 500 := by
  obtain ⟨c, h⟩ := exists_reaches 0 gatherOps (by
    simp [gatherOps, Store.LegalRun, Store.Legal, Store.empty, Store.step, Store.IsPoint, Store.ConOk]; rfl) (by simp [gatherOps])
  have hc : ((Store.empty ℝ).run gatherOps).cons = [.pointPointCoincidence 0 1, .pointPointCoincidence 1 2] := rfl
  refine ⟨c, h, strand_neverJoins, ⟨.point 3 4, by simp [gatherOps, Store.run, Store.empty, Store.step], .inl ⟨3, 4, rfl, .inl (by norm_num)⟩⟩, fun con hcon => ?_,
    ⟨fun _ => (1, 7), fun i hi x y hxy => ?_, fun _ _ _ => rfl⟩, by simp [gatherOps]⟩
  · rw [hc] at hcon
    simp only [List.mem_cons, List.not_mem_nil, or_false] at hcon
    rcases hcon with rfl | rfl <;> exact ⟨_, _, rfl⟩
  · have hf : i = 2 := by simpa [gatherOps, Store.run, Store.empty, Store.step, Store.primitives] using hi
    subst hf
    have he : ((Store.empty ℝ).run gatherOps).elems[2]? = some (.point 1 7) := rfl
    rw [he] at hxy
    cases hxy
    rfl

/-- Four points at `(1, 0)` and four at `(2, 0)`. Each four are made to coincide in two pairs that are then joined; last, a point of the one four with a point of the other. -/
noncomputable def splitMeetOps : List (Op ℝ) :=
  [.createPoint 1 0, .createPoint 1 0, .createPoint 1 0, .createPoint 1 0, .createPoint 2 0, .createPoint 2 0, .createPoint 2 0, .createPoint 2 0,
   .createCon (.pointPointCoincidence 0 1), .createCon (.pointPointCoincidence 2 3), .createCon (.pointPointCoincidence 1 2),
   .createCon (.pointPointCoincidence 4 5), .createCon (.pointPointCoincidence 6 7), .createCon (.pointPointCoincidence 5 6),
   .createCon (.pointPointCoincidence 3 7)]

theorem splitMeet_components {c : Client ℝ} (h : Reaches 0 splitMeetOps c) :
    c.sys.graph.components = [⟨{0, 1, 2, 3}, {0, 1, 2}⟩, ⟨∅, ∅⟩, ⟨{4, 5, 6, 7}, {3, 4, 5}⟩, ⟨∅, ∅⟩, ⟨∅, {6}⟩] := by
  have h2 : okAnd ((Client.new ℝ 0).run splitMeetOps) (fun c => c.sys.graph.components.map (fun k => (k.elements, k.constraints)) =
    [({0, 1, 2, 3}, {0, 1, 2}), (∅, ∅), ({4, 5, 6, 7}, {3, 4, 5}), (∅, ∅), (∅, {6})]) = true := by decide +kernel
  rw [h.run] at h2
  exact components_of_pairs (of_decide_eq_true h2)

theorem splitMeet_vars {c : Client ℝ} (h : Reaches 0 splitMeetOps c) : c.sys.vars = [1, 0, 1, 0, 1, 0, 1, 0, 2, 0, 2, 0, 2, 0, 2, 0] := by
  rw [h.crel.rel.vars]
  rfl

theorem splitMeet_expressions {c : Client ℝ} (h : Reaches 0 splitMeetOps c) :
    c.sys.expressions = [.variableVariableEquality 0 2, .variableVariableEquality 1 3, .variableVariableEquality 4 6, .variableVariableEquality 5 7,
      .variableVariableEquality 2 4, .variableVariableEquality 3 5, .variableVariableEquality 8 10, .variableVariableEquality 9 11,
      .variableVariableEquality 12 14, .variableVariableEquality 13 15, .variableVariableEquality 10 12, .variableVariableEquality 11 13,
      .variableVariableEquality 6 14, .variableVariableEquality 7 15] := by
  rw [h.crel.rel.exprs]
  rfl

theorem subsystem_rests_on {optimize : Optimize ℝ} (hk : optimize.KeepsSolutions) {T : List ℝ} {exprs : List (Expr ℝ)} {o : Optimizer} {es free : List Nat} {values values' : List ℝ}
    (hz : ∀ i ∈ es, ∀ e, exprs[i]? = some e → ∀ r, e.calculateResidual (identityMap T) = .ok r → r = 0) (h : free.mapM (idx T) = .ok values)
    (ho : optimize o (⟨T, exprs, es, free⟩ : Subsystem ℝ).problem values = .ok values') : values' = values := by
  refine hk o _ _ _ (Subsystem.problem_consistent _) (fun _ => Subsystem.problem_denseConsistent _) ho fun r hr y hy => ?_
  obtain ⟨i, hi0, hi⟩ := forall₂_mem_right (mapM_forall hr) hy
  rw [bind_eq_ok] at hi
  obtain ⟨e, h1, h2⟩ := hi
  rw [idx_eq_ok] at h1
  exact hz i hi0 e h1 y (calculateResidual_mono (fun v var hv => subsystem_value h hv) h2)

/-- Without perturbation, the first six coincidences of `splitMeetOps` are satisfied and the seventh is not seen by any call: `solve` leaves the values as they are. -/
theorem splitMeet_rests {c : Client ℝ} (h : Reaches 0 splitMeetOps c) {optimize : Optimize ℝ} (hk : optimize.KeepsSolutions) {ord : HashOrder} {o : Optimizer} {s' : System ℝ}
    (hs : c.sys.solve optimize ord ⟨o, .none, false⟩ = .ok s') : s' = c.sys := by
  obtain ⟨st, h1, rfl⟩ := solve_eq hs
  have hv := splitMeet_vars h
  have he := splitMeet_expressions h
  obtain ⟨hpos, -⟩ := C15_system_scale c.sys (.inl ⟨1, by rw [hv]; simp, by norm_num⟩)
  have hV : ∀ (v : Nat) (x : ℝ), c.sys.scaledVariables[v]? = some x → c.sys.vars[v]? = some (c.sys.scale * x) := by
    intro v x hx
    rw [System.scaledVariables, List.getElem?_map, Option.map_eq_some_iff] at hx
    obtain ⟨y, h2, rfl⟩ := hx
    rw [h2]
    congr 1
    field_simp
  have hzero : ∀ i < 12, ∀ e, c.sys.scaledExpressions[i]? = some e → ∀ r, e.calculateResidual (identityMap c.sys.scaledVariables) = .ok r → r = 0 := by
    intro i hi e hei r hr
    rw [System.scaledExpressions, List.getElem?_map, Option.map_eq_some_iff] at hei
    obtain ⟨e0, h2, rfl⟩ := hei
    have h3 : e0.calculateResidual (identityMap c.sys.vars) = .ok 0 := by
      rw [he] at h2
      rw [hv]
      interval_cases i <;> cases h2 <;> first | exact congrArg Except.ok (sub_self (0 : ℝ)) | exact congrArg Except.ok (sub_self (1 : ℝ)) | exact congrArg Except.ok (sub_self (2 : ℝ))
    have := (C15_rescaling (k := 1 / c.sys.scale) (by positivity) e0 c.sys.vars h3).1
    rw [System.scaledVariables, this] at hr
    cases hr
    rw [mul_zero]
  have := foldlM_inv (fun s' : SolveState ℝ => s'.vars = c.sys.vars ∧ s'.transformed = c.sys.scaledVariables) _ _ _ _ ⟨rfl, rfl⟩
    (fun s3 ck s4 hck h12 h13 => ?_) h1
  · rw [this.1]
  · obtain ⟨h4, h5⟩ := h12
    unfold solveComponent at h13
    split at h13
    · cases h13; exact ⟨h4, h5⟩
    rename_i hne
    have hmem : ∀ n ∈ ck.1.constraints, n < 6 := by
      have h6 := List.fst_mem_of_mem_zipIdx hck
      rw [splitMeet_components h] at h6
      simp only [List.mem_cons, List.not_mem_nil, or_false] at h6
      rcases h6 with h6 | h6 | h6 | h6 | h6 <;> rw [h6] at hne ⊢ <;> simp at hne ⊢
    simp only [bind_eq_ok, perturbFree] at h13
    obtain ⟨free, -, st1, h7, h13⟩ := h13
    cases h7
    simp only [solveWhole, bind_eq_ok] at h13
    obtain ⟨values, h8, es, h9, values', h10, vars, h11, h14⟩ := h13
    cases h14
    rw [h5] at h8 h10
    rw [subsystem_rests_on hk (fun i hi => hzero i ?_) h8 h10, h4] at h11
    · exact ⟨writeVars_same (zipIdx_values h8) hV h11, h5⟩
    · obtain ⟨l, hl, hil⟩ := List.mem_flatten.1 hi
      obtain ⟨n, hn, hnl⟩ := forall₂_mem_right (mapM_forall h9) hl
      have hn6 := hmem n ((mem_ascending _ _).1 hn)
      obtain ⟨con, h15, h16, h17⟩ := (h.crel.rel.constraintExpressions hnl i).1 hil
      have hc : ((Store.empty ℝ).run splitMeetOps).cons = [.pointPointCoincidence 0 1, .pointPointCoincidence 2 3, .pointPointCoincidence 1 2, .pointPointCoincidence 4 5,
        .pointPointCoincidence 6 7, .pointPointCoincidence 5 6, .pointPointCoincidence 3 7] := rfl
      rw [Store.firstEquation, hc] at h17
      rw [hc] at h15
      clear h16
      interval_cases n <;> cases h15 <;> simp [Spec.Con.equations] at h17 <;> omega

/-- C69 does not hold if a constraint joins parts that were separate. The eight points of `splitMeetOps` can be placed, but the last coincidence has landed in a component without elements, see
`C17_joined_parts_fall_apart`; `solve` returns and leaves the two points of this coincidence at distance 1. -/
theorem C69_joined_coincidence_unsolved (cast : ℝ → Int) {sort : SortByKey} (hsort : Spec.Sorts sort) {ord : HashOrder} (hord : ord.Ok) :
    ∃ c hdl, Reaches 0 splitMeetOps c ∧ ((Store.empty ℝ).run splitMeetOps).NonZero ∧ ((Store.empty ℝ).run splitMeetOps).OnlyCoincidences ∧
      ((Store.empty ℝ).run splitMeetOps).Placeable ∧ c.conHandles[6]? = some hdl ∧
      ∃ s' k, (∀ fuel, k ≤ fuel → c.sys.solve (crateOptimize (qrLeastSquares sort (colamdOfStructure cast)) fuel) ord ⟨.levenbergMarquardt, .none, false⟩ = .ok s') ∧
        s'.calculateResidual .pointPointCoincidence hdl = .ok 1 := by
  obtain ⟨c, h⟩ := exists_reaches 0 splitMeetOps (by
    simp [splitMeetOps, Store.LegalRun, Store.Legal, Store.empty, Store.step, Store.IsPoint, Store.ConOk]) (by simp [splitMeetOps])
  have hc : ((Store.empty ℝ).run splitMeetOps).cons = [.pointPointCoincidence 0 1, .pointPointCoincidence 2 3, .pointPointCoincidence 1 2, .pointPointCoincidence 4 5,
    .pointPointCoincidence 6 7, .pointPointCoincidence 5 6, .pointPointCoincidence 3 7] := rfl
  obtain ⟨s', k, hk⟩ := C52_solve_returns_partial cast hsort h (by simp [splitMeetOps]) hord (opts := ⟨.levenbergMarquardt, .none, false⟩) (by simp) rfl
  have hs' := splitMeet_rests h (crateOptimize_keeps _ k) (hk k le_rfl)
  refine ⟨c, _, h, ⟨.point 1 0, by simp [splitMeetOps, Store.run, Store.empty, Store.step], .inl ⟨1, 0, rfl, .inl (by norm_num)⟩⟩, fun con hcon => ?_,
    ⟨fun _ => (0, 0), fun i hi => ?_, fun _ _ _ => rfl⟩, h.crel.conHandle (i := 6) (by rw [hc]; simp), s', k, hk, ?_⟩
  · rw [hc] at hcon
    simp only [List.mem_cons, List.not_mem_nil, or_false] at hcon
    rcases hcon with rfl | rfl | rfl | rfl | rfl | rfl | rfl <;> exact ⟨_, _, rfl⟩
  · exact absurd hi (by simp [splitMeetOps, Store.run, Store.empty, Store.step])
  · subst hs'
    have hcon := h.crel.rel.constraint_at (i := 6) (c := .pointPointCoincidence 3 7) (by rw [hc]; rfl)
    have hid : (((((Store.empty ℝ).run splitMeetOps).cons.take 6).flatMap (encCon ((Store.empty ℝ).run splitMeetOps).elems)).length) = 12 := rfl
    rw [hid] at hcon
    rw [System.calculateResidual, if_neg (by simp), System.residualOf, idx_of hcon, ok_bind, if_pos (by simp [ConstraintTag.valency]), splitMeet_vars h, splitMeet_expressions h]
    have h9 : (List.range (ConstraintTag.valency .pointPointCoincidence)).mapM (fun offset => do
        let e ← idx ([.variableVariableEquality 0 2, .variableVariableEquality 1 3, .variableVariableEquality 4 6, .variableVariableEquality 5 7,
          .variableVariableEquality 2 4, .variableVariableEquality 3 5, .variableVariableEquality 8 10, .variableVariableEquality 9 11,
          .variableVariableEquality 12 14, .variableVariableEquality 13 15, .variableVariableEquality 10 12, .variableVariableEquality 11 13,
          .variableVariableEquality 6 14, .variableVariableEquality 7 15] : List (Expr ℝ)) (12 + offset)
        e.calculateResidual (identityMap [1, 0, 1, 0, 1, 0, 1, 0, 2, 0, 2, 0, 2, 0, 2, 0])) = (.ok [2 - 1, 0 - 0] : R (List ℝ)) := rfl
    rw [h9, ok_bind, pure_eq_ok]
    congr 1
    norm_num [sumSquares, FloatOps.sqrt]

end Fiksi
