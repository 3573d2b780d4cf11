import Verif.Proofs.FittingMap
import Verif.Props.LbfgsMachine
import Mathlib.LinearAlgebra.Matrix.DotProduct
/-!
# L-BFGS on equivalent problems

The method uses the cost, the gradient and dot products only. A linear map of the variables that keeps dot products and the cost and carries the gradient therefore carries runs of the method to runs of
the method.
-/
namespace Fiksi.Spec

open Matrix

section
variable {n n' : Nat} (T : (Fin n → ℝ) →ₗ[ℝ] (Fin n' → ℝ))

/-- A correction in the other variables. -/
def Pair.map (c : Pair n) : Pair n' := ⟨T c.s, T c.y, c.rho⟩

theorem bfgsUpdate_apply (H : Matrix (Fin n) (Fin n) ℝ) (c : Pair n) (v : Fin n → ℝ) :
    bfgsUpdate H c *ᵥ v = H *ᵥ (v - (c.rho * (c.s ⬝ᵥ v)) • c.y) - (c.rho * (c.y ⬝ᵥ (H *ᵥ (v - (c.rho * (c.s ⬝ᵥ v)) • c.y)))) • c.s + (c.rho * (c.s ⬝ᵥ v)) • c.s := by
  have h1 : ∀ a b w : Fin n → ℝ, (c.rho • vecMulVec a b) *ᵥ w = (c.rho * (b ⬝ᵥ w)) • a := by
    intro a b w
    rw [smul_mulVec, vecMulVec_mulVec]
    ext i
    simp only [Pi.smul_apply, smul_eq_mul, MulOpposite.smul_eq_mul_unop, MulOpposite.unop_op]
    ring
  rw [bfgsUpdate, add_mulVec, h1, ← mulVec_mulVec, ← mulVec_mulVec, sub_mulVec, sub_mulVec, one_mulVec, one_mulVec, h1, h1]

variable (hT : ∀ x y, T x ⬝ᵥ T y = x ⬝ᵥ y)
include hT

theorem bfgsMatrix_map (γ : ℝ) (cs : List (Pair n)) (v : Fin n → ℝ) : bfgsMatrix γ (cs.map (Pair.map T)) *ᵥ T v = T (bfgsMatrix γ cs *ᵥ v) := by
  induction cs using List.reverseRecOn generalizing v with
  | nil => simp [bfgsMatrix, smul_mulVec]
  | append_singleton cs c ih =>
    have h1 : bfgsMatrix γ (cs ++ [c]) = bfgsUpdate (bfgsMatrix γ cs) c := by simp [bfgsMatrix]
    have h2 : bfgsMatrix γ ((cs ++ [c]).map (Pair.map T)) = bfgsUpdate (bfgsMatrix γ (cs.map (Pair.map T))) (c.map T) := by simp [bfgsMatrix]
    rw [h1, h2, bfgsUpdate_apply, bfgsUpdate_apply]
    simp only [Pair.map, hT]
    rw [← map_smul, ← map_sub, ih, hT, ← map_smul, ← map_smul, ← map_sub, ← map_add]

theorem bfgsScale_map (c : Option (Pair n)) : bfgsScale (c.map (Pair.map T)) = bfgsScale c := by
  cases c with
  | none => rfl
  | some c => simp only [bfgsScale, Option.map_some, Pair.map, hT]

end

namespace Objective

/-- `T` carries the problem `P` to the problem `P'`. -/
structure Carries {n n' : Nat} (P : Objective n) (P' : Objective n') (T : (Fin n → ℝ) →ₗ[ℝ] (Fin n' → ℝ)) : Prop where
  dot : ∀ x y, T x ⬝ᵥ T y = x ⬝ᵥ y
  cost : ∀ x, P'.cost (T x) = P.cost x
  grad : ∀ x, P'.grad (T x) = T (P.grad x)

variable {n n' : Nat} {P : Objective n} {P' : Objective n'} {T : (Fin n → ℝ) →ₗ[ℝ] (Fin n' → ℝ)} (hT : P.Carries P' T)
include hT

theorem Carries.direction (cs : List (Pair n)) (x : Fin n → ℝ) : P'.direction (cs.map (Pair.map T)) (T x) = T (P.direction cs x) := by
  have h1 : counting (cs.map (Pair.map T)) = (counting cs).map (Pair.map T) := by
    unfold counting
    rw [List.length_map]
    split
    · rw [List.map_take]
    · rw [List.map_drop]
  rw [Objective.direction, Objective.direction, hT.grad, List.getLast?_map, bfgsScale_map T hT.dot, h1, bfgsMatrix_map T hT.dot, map_neg]

theorem Carries.isStep {x d : Fin n → ℝ} {t : ℝ} (h : P.IsStep x d t) : P'.IsStep (T x) (T d) t := by
  have h1 : (fun t : ℝ => P'.cost (T x + t • T d)) = fun t => P.cost (x + t • d) := by
    funext t
    rw [← map_smul, ← map_add, hT.cost]
  have h2 : (fun t : ℝ => P'.grad (T x + t • T d) ⬝ᵥ T d) = fun t => P.grad (x + t • d) ⬝ᵥ d := by
    funext t
    rw [← map_smul, ← map_add, hT.grad, hT.dot]
  rw [IsStep, h1, h2]
  exact h

theorem Carries.correction (x x' : Fin n → ℝ) : P'.correction (T x) (T x') = (P.correction x x').map T := by
  rw [Objective.correction, Objective.correction, hT.grad, hT.grad, ← map_sub, ← map_sub, hT.dot]
  rfl

theorem Carries.ends (x x' : Fin n → ℝ) : P'.Ends (T x) (T x') ↔ P.Ends x x' := by
  rw [Ends, Ends, hT.cost, hT.cost]

theorem Carries.steps {k : Nat} {cs : List (Pair n)} {x z : Fin n → ℝ} (h : P.Steps k cs x z) : P'.Steps k (cs.map (Pair.map T)) (T x) (T z) := by
  induction h with
  | spent => exact .spent
  | @last k cs x t h1 h2 =>
    rw [map_add, map_smul, ← hT.direction]
    refine .last (by rw [hT.direction]; exact hT.isStep h1) ?_
    rw [hT.direction, ← map_smul, ← map_add, hT.ends]
    exact h2
  | @step k cs x z t h1 h2 _ ih =>
    refine .step (t := t) (by rw [hT.direction]; exact hT.isStep h1) ?_ ?_
    · rw [hT.direction, ← map_smul, ← map_add, hT.ends]
      exact h2
    · rw [hT.direction, ← map_smul, ← map_add, hT.correction]
      rw [List.map_append] at ih
      exact ih

/-- Runs of the method are carried to runs of the method. -/
theorem Carries.lbfgs {x z : Fin n → ℝ} (h : P.Lbfgs x z) : P'.Lbfgs (T x) (T z) := by
  cases h with
  | small h1 => exact .small (by rw [hT.cost]; exact h1)
  | steps h1 h2 => exact .steps (by rw [hT.cost]; exact h1) (hT.steps h2)

end Objective

/-! ## The objective of a fitting problem -/

/-- The sum of squares and half its gradient. -/
noncomputable def Fitting.objective (Q : Fitting) (n : Nat) : Objective n where
  cost v := ∑ c ∈ Finset.range Q.m, (Q.res (List.ofFn v)).getD c 0 ^ 2
  grad v k := ∑ c ∈ Finset.range Q.m, Q.jac (List.ofFn v) c k * (Q.res (List.ofFn v)).getD c 0

namespace Fitting

theorem squares_ofFn {n : Nat} (v : Fin n → ℝ) : squares (List.ofFn v) = v ⬝ᵥ v := by
  rw [squares, List.map_ofFn, List.sum_ofFn, dotProduct]
  exact Finset.sum_congr rfl fun i _ => sq (v i)

theorem add_ofFn {n : Nat} (v w : Fin n → ℝ) : add (List.ofFn v) (List.ofFn w) = List.ofFn (v + w) := by
  refine List.ext_getElem (by simp [add]) fun i h1 h2 => ?_
  simp [add]

theorem model_diff (P : Fitting) (x δ : List ℝ) :
    P.model x δ - P.model x (δ.map (-1 * ·)) = 4 * ∑ c ∈ Finset.range P.n, δ.getD c 0 * ∑ r ∈ Finset.range P.m, P.jac x r c * (P.res x).getD r 0 := by
  have h1 : ∀ c, (δ.map (-1 * ·)).getD c 0 = -δ.getD c 0 := by
    intro c
    rw [List.getD_eq_getElem?_getD, List.getElem?_map, List.getD_eq_getElem?_getD]
    cases δ[c]? <;> simp
  have h2 : ∀ r, ∑ c ∈ Finset.range P.n, P.jac x r c * (δ.map (-1 * ·)).getD c 0 = -∑ c ∈ Finset.range P.n, P.jac x r c * δ.getD c 0 := by
    intro r
    rw [← Finset.sum_neg_distrib]
    exact Finset.sum_congr rfl fun c _ => by rw [h1]; ring
  rw [model, model, ← Finset.sum_sub_distrib]
  simp only [h2, Finset.mul_sum]
  rw [Finset.sum_comm]
  refine Finset.sum_congr rfl fun r _ => ?_
  have h3 : ∀ a b : ℝ, (a + b) ^ 2 - (-a + b) ^ 2 = 4 * b * a := fun a b => by ring
  rw [h3, Finset.mul_sum]
  exact Finset.sum_congr rfl fun c _ => by ring

theorem sum_range_dot {n : Nat} (x : List ℝ) (f : Nat → ℝ) : ∑ c ∈ Finset.range n, x.getD c 0 * f c = vec n x ⬝ᵥ fun i : Fin n => f i := by
  rw [dotProduct, ← Fin.sum_univ_eq_sum_range (fun c => x.getD c 0 * f c)]
  rfl

/-- What carries the fitting problem carries the objective. -/
theorem Carries.objective {P P' : Fitting} {T : List ℝ → List ℝ} (hT : P.Carries P' T) (hsmul : ∀ k x, x.length = P.n → T (x.map (k * ·)) = (T x).map (k * ·))
    (hres : ∀ x, x.length = P.n → (P.res x).length = P.m) (hres' : ∀ x, x.length = P'.n → (P'.res x).length = P'.m) {n n' : Nat} (hn : n = P.n) (hn' : n' = P'.n) :
    ∃ L : (Fin n → ℝ) →ₗ[ℝ] (Fin n' → ℝ), (∀ x, x.length = n → L (vec n x) = vec n' (T x)) ∧ (P.objective n).Carries (P'.objective n') L := by
  have hlen : ∀ v : Fin n → ℝ, (List.ofFn v).length = P.n := fun v => by rw [List.length_ofFn, hn]
  have hback : ∀ v : Fin n → ℝ, List.ofFn (vec n' (T (List.ofFn v))) = T (List.ofFn v) := fun v => ofFn_vec ((hT.length _ (hlen v)).trans hn'.symm)
  let L : (Fin n → ℝ) →ₗ[ℝ] (Fin n' → ℝ) :=
    { toFun := fun v => vec n' (T (List.ofFn v))
      map_add' := fun v w => by
        rw [← add_ofFn, ← hT.add _ _ (hlen v) (hlen w)]
        ext i
        exact add_getD (hT.length _ (hlen v)) (hT.length _ (hlen w)) i
      map_smul' := fun k v => by
        have h1 : List.ofFn (k • v) = (List.ofFn v).map (k * ·) := by
          rw [List.map_ofFn]
          rfl
        rw [h1, hsmul _ _ (hlen v)]
        ext i
        simp only [vec, List.getD_eq_getElem?_getD, List.getElem?_map, RingHom.id_apply, Pi.smul_apply, smul_eq_mul]
        cases (T (List.ofFn v))[(i : Nat)]? <;> simp }
  have hL : ∀ v, List.ofFn (L v) = T (List.ofFn v) := hback
  have hsq : ∀ v, L v ⬝ᵥ L v = v ⬝ᵥ v := fun v => by
    rw [← squares_ofFn, ← squares_ofFn, hL, hT.squares _ (hlen v)]
  have hdot : ∀ v w, L v ⬝ᵥ L w = v ⬝ᵥ w := fun v w => by
    have h1 := hsq (v + w)
    have h2 := dotProduct_comm (L w) (L v)
    have h3 := dotProduct_comm w v
    rw [map_add, add_dotProduct, dotProduct_add, dotProduct_add, add_dotProduct, dotProduct_add, dotProduct_add, hsq, hsq] at h1
    linarith
  have hcost : ∀ {Q : Fitting} {m : Nat} (v : Fin m → ℝ), (Q.res (List.ofFn v)).length = Q.m → (Q.objective m).cost v = Q.cost (List.ofFn v) := by
    intro Q m v hv
    rw [Fitting.cost, squares_eq_sum, hv]
    rfl
  refine ⟨L, fun x hx => ?_, hdot, fun v => ?_, fun v => ?_⟩
  · show vec n' (T (List.ofFn (vec n x))) = _
    rw [ofFn_vec hx]
  · rw [hcost _ (hres' _ (by rw [List.length_ofFn, hn'])), hcost _ (hres _ (hlen v)), hL, hT.cost _ (hlen v)]
  · have key : ∀ w, L w ⬝ᵥ (P'.objective n').grad (L v) = w ⬝ᵥ (P.objective n).grad v := by
      intro w
      have h1 := P.model_diff (List.ofFn v) (List.ofFn w)
      have h2 := P'.model_diff (T (List.ofFn v)) (T (List.ofFn w))
      rw [← hsmul _ _ (hlen w), hT.model _ _ (hlen v) (hlen w), hT.model _ _ (hlen v) (by rw [List.length_map, hlen]), h1] at h2
      have h3 := mul_left_cancel₀ (by norm_num) h2
      rw [← hn, ← hn', sum_range_dot (List.ofFn w) (fun c => ∑ r ∈ Finset.range P.m, P.jac (List.ofFn v) r c * (P.res (List.ofFn v)).getD r 0),
        sum_range_dot (T (List.ofFn w)) (fun c => ∑ r ∈ Finset.range P'.m, P'.jac (T (List.ofFn v)) r c * (P'.res (T (List.ofFn v))).getD r 0), vec_ofFn] at h3
      refine Eq.trans ?_ h3.symm
      show L w ⬝ᵥ (fun i : Fin n' => ∑ r ∈ Finset.range P'.m, P'.jac (List.ofFn (L v)) r i * (P'.res (List.ofFn (L v))).getD r 0) = _
      rw [hL, ← hL w, vec_ofFn]
    refine dotProduct_eq _ _ fun u => ?_
    obtain ⟨x, h1, h2⟩ := hT.surjective (List.ofFn u) (by rw [List.length_ofFn, hn'])
    have h3 : u = L (vec n x) := by
      show u = vec n' (T (List.ofFn (vec n x)))
      rw [ofFn_vec (h1.trans hn.symm), h2, vec_ofFn]
    rw [h3, dotProduct_comm, key, dotProduct_comm, hdot, dotProduct_comm]

end Fitting
end Fiksi.Spec

namespace Fiksi
open Spec

/-- L-BFGS works with the objective of the fitting problem that Levenberg–Marquardt works with, if no expression uses a variable twice. -/
theorem Subsystem.Ok.evaluates {sub : Subsystem ℝ} (hok : sub.Ok) (hpl : sub.Plain) {Q : Fitting} (h1 : sub.problem.Computes Q sub.pattern) :
    sub.problem.Evaluates (Q.objective sub.problem.numVariables) := by
  have hm : sub.expressions.length = Q.m := h1.rows
  have hn : sub.freeVariables.length = Q.n := h1.columns
  have hN : sub.problem.numVariables = sub.freeVariables.length := rfl
  have hentry : ∀ u rs jac r j, u.length = sub.freeVariables.length → rs.length = sub.expressions.length → sub.problem.Buffer jac →
      sub.problem.denseJacobian u rs jac = .ok (r, j) → ∀ c < Q.m, ∀ k : Fin sub.problem.numVariables, j.getD (c * sub.problem.numVariables + k) 0 = Q.jac u c k := by
    intro u rs jac r j hu hrs hb hd c hc k
    obtain ⟨id, e, g1, g2, -⟩ := Subsystem.exprAt_of hok (c := c) (by rw [hm]; exact hc)
    obtain ⟨rs', ts, j', s1, s2, s3, s4⟩ := C29_dense_eq_sparse_partial hok hu hpl rs hrs
    have a1 := (Subsystem.dense_dot hok hpl hu hrs hb hd (d := List.ofFn (Pi.single k 1 : Fin sub.problem.numVariables → ℝ)) g1 g2).2
    have a2 := (Subsystem.dense_dot hok hpl hu hrs .zero s2 (d := List.ofFn (Pi.single k 1 : Fin sub.problem.numVariables → ℝ)) g1 g2).2
    rw [← hN, basis_dot k (fun i => j.getD (c * sub.problem.numVariables + i) 0)] at a1
    rw [← hN, basis_dot k (fun i => j'.getD (c * sub.problem.numVariables + i) 0)] at a2
    rw [a1, ← a2, List.getD_eq_getElem?_getD]
    have a3 := s4 c (by rw [hm]; exact hc) k k.2
    have a3' : j'[c * sub.problem.numVariables + k]? = some (entrySum ts c k) := a3
    rw [a3', Option.getD_some]
    obtain ⟨ts', b1, -, -, b4⟩ := h1.sparse u rs (hu.trans hn) (hrs.trans hm)
    have b1' : sub.sparseJacobian u rs [] = .ok (Q.res u, ts') := b1
    rw [s1, Except.ok.injEq, Prod.mk.injEq] at b1'
    rw [b1'.2]
    exact b4 c hc k (by rw [← hn]; exact k.2)
  refine ⟨hok.denseOk, fun u rs jac hu hrs hj hb => ?_⟩
  obtain ⟨r, j, a1, a2, a3, a4⟩ := hok.denseOk u rs jac hu hrs hj
  have hr : r = Q.res u := by
    have := (h1.residuals u (hu.trans hn)).1
    rw [a2, Except.ok.injEq] at this
    exact this
  refine ⟨r, j, a1, a2, a3, a4, ?_, fun k => ?_⟩
  · show ∑ c ∈ Finset.range sub.expressions.length, _ = ∑ c ∈ Finset.range Q.m, _
    rw [hm, ofFn_vec hu, hr]
  · show ∑ c ∈ Finset.range sub.expressions.length, _ = ∑ c ∈ Finset.range Q.m, _
    rw [hm, ofFn_vec hu, hr]
    refine Finset.sum_congr rfl fun c hc => ?_
    rw [hentry u rs jac r j hu hrs hb a1 c (Finset.mem_range.1 hc) k]

/-- What an optimiser makes of a fitting problem. -/
def Optimizer.Finds (o : Optimizer) (P : Fitting) (x z : List ℝ) : Prop :=
  match o with
  | .levenbergMarquardt => P.Run 100 x (1 / 2) z
  | .lBfgs => z.length = P.n ∧ (P.objective P.n).Lbfgs (vec P.n x) (vec P.n z)

/-- What carries the problem carries the results. -/
theorem Spec.Fitting.Carries.finds {P P' : Fitting} {T : List ℝ → List ℝ} (hT : P.Carries P' T) (hsmul : ∀ k x, x.length = P.n → T (x.map (k * ·)) = (T x).map (k * ·))
    (hres : ∀ x, x.length = P.n → (P.res x).length = P.m) (hres' : ∀ x, x.length = P'.n → (P'.res x).length = P'.m) {o : Optimizer} {x z : List ℝ} (hx : x.length = P.n) (h : o.Finds P x z) :
    o.Finds P' (T x) (T z) := by
  cases o with
  | levenbergMarquardt => exact hT.run (by norm_num) hx h
  | lBfgs =>
    obtain ⟨L, h1, h2⟩ := hT.objective hsmul hres hres' rfl rfl
    refine ⟨hT.length _ h.1, ?_⟩
    rw [← h1 x hx, ← h1 z h.1]
    exact h2.lbfgs h.2

end Fiksi
