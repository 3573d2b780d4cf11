import Verif.Props.Lbfgs
import Verif.Props.LmNan
import Mathlib.Data.Matrix.Mul
import Mathlib.Tactic.NormNum
/-!
# C27, C52: L-BFGS ignores its corrections early on; with NaN it does not return
-/
namespace Fiksi

open Spec FloatOps
open NanInt (numb nan)

/-! ## NaN -/

/-- The buffers of the line search in the witness. -/
def nanBuffers : EvalState NanInt :=
  ⟨[nan, nan, nan, nan], [numb (-1), numb 0, numb 1, numb 0, numb 0, numb (-1), numb 0, numb 1], [nan, nan], [nan, nan, nan, nan]⟩

theorem nan_calculatePhi (t : NanInt) : calculatePhi originSub.problem [nan, nan, nan, nan] [nan, nan, nan, nan] nanBuffers t =
    .ok (⟨t, nan, nan⟩, nanBuffers) := by
  cases t <;> rfl

theorem nan_updateLoop : ∀ (fuel : Nat) (a b : Param NanInt),
    updateLoop originSub.problem [nan, nan, nan, nan] [nan, nan, nan, nan] nan fuel nanBuffers a b = .error .outOfFuel := by
  intro fuel
  induction fuel with
  | zero => intros; rfl
  | succ fuel ih =>
    intro a b
    rw [updateLoop, nan_calculatePhi, ok_bind]
    exact ih a _

theorem nan_search (n fuel : Nat) (a b c : Param NanInt) (ha : a.dphi = nan) :
    search originSub.problem [nan, nan, nan, nan] [nan, nan, nan, nan] nan nan fuel (n + 1) nanBuffers a b c = .error .outOfFuel := by
  have h1 : secant a b = nan := by
    unfold secant
    rw [ha]
    cases a.p <;> cases b.p <;> cases b.dphi <;> rfl
  have h2 : update originSub.problem [nan, nan, nan, nan] [nan, nan, nan, nan] nan fuel nanBuffers a b ⟨nan, nan, nan⟩ =
      .error .outOfFuel := by
    unfold update
    rw [if_neg, if_neg, if_neg]
    · exact nan_updateLoop _ _ _
    · decide
    · decide
    · cases a.p <;> cases b.p <;> simp [ltB]
  rw [search, secant2, nan_calculatePhi, h1, ok_bind]
  simp only
  rw [if_neg (by decide), h2]
  rfl

theorem nan_lbfgs (fuel : Nat) : lbfgs originSub.problem fuel [nan, nan, nan, nan] = .error .outOfFuel := by
  have h1 : lbfgsStart originSub.problem [nan, nan, nan, nan] = .ok (some ⟨[nan, nan, nan, nan], nanBuffers.jacobian,
      [nan, nan], [nan, nan, nan, nan], List.replicate 5 ⟨List.replicate 4 0, List.replicate 4 0, 0⟩, nan, []⟩) := rfl
  rw [lbfgs, h1, ok_bind]
  simp only
  rw [lbfgsLoop, lbfgsStep]
  have h2 : lbfgsDirection (List.replicate 5 ⟨List.replicate 4 0, List.replicate 4 0, 0⟩) 0 [nan, nan, nan, nan] =
      .ok [nan, nan, nan, nan] := rfl
  simp only
  rw [h2, ok_bind]
  have h3 : lineSearch originSub.problem [nan, nan, nan, nan] [nan, nan, nan, nan] nan fuel nanBuffers = .error .outOfFuel := by
    have h4 : dot nanBuffers.gradient [nan, nan, nan, nan] = nan := rfl
    rw [lineSearch, h4, lineSearchRun, nan_calculatePhi, ok_bind]
    simp only
    rw [if_neg (by decide), nan_calculatePhi, ok_bind]
    exact nan_search 99 fuel _ _ _ rfl
  have h5 : lineSearch originSub.problem [nan, nan, nan, nan] [nan, nan, nan, nan] nan fuel
      ⟨[nan, nan, nan, nan], nanBuffers.jacobian, [nan, nan], [nan, nan, nan, nan]⟩ = .error .outOfFuel := h3
  rw [h5]
  rfl

/-- Build the two points and solve with L-BFGS. -/
def solveOriginLbfgs (optimize : Optimize NanInt) (ord : HashOrder) : R (System NanInt) := do
  let c ← (Client.new NanInt 0).run originOps
  c.sys.solve optimize ord { SolvingOptions.default with optimizer := .lBfgs }

theorem originLbfgs_solve (optimize : Optimize NanInt) (ord : HashOrder) : solveOriginLbfgs optimize ord =
    solveOriginLbfgs (fun _ _ _ => optimize .lBfgs originSub.problem [nan, nan, nan, nan]) ord := rfl

/-- C52 is false for L-BFGS as well: with all points at the origin the scaled values are NaN, no comparison in the line search
succeeds, and `solve` never returns. -/
theorem C52_lbfgs_nan_never_returns : ∃ c, Reaches 0 originOps c ∧ ∀ (fuel : Nat) (ord : HashOrder),
    c.sys.solve (fun _ p x => lbfgs p fuel x) ord { SolvingOptions.default with optimizer := .lBfgs } = .error .outOfFuel := by
  obtain ⟨c, h⟩ := exists_reaches (F := NanInt) 0 originOps (by
    simp [originOps, Store.LegalRun, Store.Legal, Store.empty, Store.step, Store.IsPoint, Store.ConOk]) (by simp [originOps])
  refine ⟨c, h, fun fuel ord => ?_⟩
  have h1 := originLbfgs_solve (fun _ p x => lbfgs p fuel x) ord
  rw [nan_lbfgs] at h1
  have h9 : solveOriginLbfgs (fun _ _ _ => .error .outOfFuel) ord = .error .outOfFuel := rfl
  rw [h9, solveOriginLbfgs, h.run] at h1
  exact h1

/-! ## The second iteration ignores the first correction -/

/-- The residuals `x` and `y / 2`. -/
noncomputable def bowl : Problem ℝ where
  numVariables := 2
  numResiduals := 2
  residuals := fun
    | [x, y] => .ok [x, y * (1 / 2)]
    | _ => .error .indexOutOfBounds
  denseJacobian := fun v _ _ => match v with
    | [x, y] => .ok ([x, y * (1 / 2)], [1, 0, 0, 1 / 2])
    | _ => .error .indexOutOfBounds
  sparseJacobian := fun v _ _ => match v with
    | [x, y] => .ok ([x, y * (1 / 2)], [(0, 0, 1), (1, 1, 1 / 2)])
    | _ => .error .indexOutOfBounds

theorem bowl_denseOk : bowl.DenseOk := by
  intro x rs jac hx _ _
  match x, hx with
  | [a, b], _ => exact ⟨_, _, rfl, rfl, rfl, rfl⟩

/-- The state after the first iteration from `(1, 1)`. -/
noncomputable def bowlState : LbfgsState ℝ :=
  ⟨[0, 3 / 4], [1, 0, 0, 1 / 2], [0, 3 / 8], [0, 3 / 16],
    [⟨[-1, -1 / 4], [-1, -1 / 16], 64 / 65⟩, ⟨[0, 0], [0, 0], 0⟩, ⟨[0, 0], [0, 0], 0⟩, ⟨[0, 0], [0, 0], 0⟩, ⟨[0, 0], [0, 0], 0⟩],
    9 / 64, [⟨[-1, -1 / 4], [-1, -1 / 16], 64 / 65⟩]⟩

theorem bowl_start : lbfgsStart bowl [1, 1] = .ok (some ⟨[1, 1], [1, 0, 0, 1 / 2], [1, 1 / 2], [1, 1 / 4],
    List.replicate 5 ⟨[0, 0], [0, 0], 0⟩, 5 / 4, []⟩) := by
  have h1 : sumSquares ([1, 1 * (1 / 2)] : List ℝ) = 5 / 4 := by norm_num [sumSquares]
  have h2 : computeGradient ([1, 0, 0, 1 / 2] : List ℝ) [1, 1 * (1 / 2)] 2 =
      .ok [0 + 1 * 1 + 0 * (1 * (1 / 2)), 0 + 0 * 1 + 1 / 2 * (1 * (1 / 2))] := rfl
  rw [lbfgsStart]
  show (if ltB (sumSquares ([1, 1 * (1 / 2)] : List ℝ)) (ratio 1 10000) then pure none else
    computeGradient ([1, 0, 0, 1 / 2] : List ℝ) [1, 1 * (1 / 2)] 2 >>= fun g => pure (some
      (⟨[1, 1], [1, 0, 0, 1 / 2], [1, 1 * (1 / 2)], g, List.replicate 5 ⟨[0, 0], [0, 0], 0⟩, sumSquares ([1, 1 * (1 / 2)] : List ℝ), []⟩
        : LbfgsState ℝ))) = _
  rw [h1, h2, if_neg (by norm_num [ltB, ratio, FloatOps.ofNat]), ok_bind]
  norm_num

theorem bowl_phi (st : EvalState ℝ) (h : st.scratch.length = 2) (hg : st.gradient.length = 2) :
    calculatePhi bowl [1, 1] [-1, -1 / 4] st 1 =
      .ok (⟨1, 9 / 64, -3 / 64⟩, ⟨[0, 3 / 4], [1, 0, 0, 1 / 2], [0, 3 / 8], [0, 3 / 16]⟩) := by
  obtain ⟨scratch, jac, rs, g⟩ := st
  match scratch, h with
  | [a, b], _ =>
    simp only at hg
    have h1 : calculatePhi bowl [1, 1] [-1, -1 / 4] ⟨[a, b], jac, rs, g⟩ 1 = (do
        let gradient ← computeGradient ([1, 0, 0, 1 / 2] : List ℝ) [1 + 1 * -1, (1 + 1 * (-1 / 4)) * (1 / 2)] g.length
        pure ((⟨1, sumSquares [1 + 1 * -1, (1 + 1 * (-1 / 4)) * (1 / 2)], dot gradient [-1, -1 / 4]⟩ : Param ℝ),
          (⟨[1 + 1 * -1, 1 + 1 * (-1 / 4)], [1, 0, 0, 1 / 2], [1 + 1 * -1, (1 + 1 * (-1 / 4)) * (1 / 2)], gradient⟩ : EvalState ℝ))) := rfl
    have h2 : computeGradient ([1, 0, 0, 1 / 2] : List ℝ) [1 + 1 * -1, (1 + 1 * (-1 / 4)) * (1 / 2)] 2 =
      .ok [0 + 1 * (1 + 1 * -1) + 0 * ((1 + 1 * (-1 / 4)) * (1 / 2)),
        0 + 0 * (1 + 1 * -1) + 1 / 2 * ((1 + 1 * (-1 / 4)) * (1 / 2))] := rfl
    rw [h1, hg, h2, ok_bind]
    norm_num [sumSquares, dot]

theorem bowl_step (fuel : Nat) : lbfgsStep bowl fuel 0 ⟨[1, 1], [1, 0, 0, 1 / 2], [1, 1 / 2], [1, 1 / 4],
    List.replicate 5 ⟨[0, 0], [0, 0], 0⟩, 5 / 4, []⟩ = .ok (false, bowlState) := by
  have h1 : lbfgsDirection (List.replicate 5 (⟨[0, 0], [0, 0], 0⟩ : Correction ℝ)) 0 [1, 1 / 4] = .ok [1 * -1, 1 / 4 * -1] := rfl
  have h2 : lineSearch bowl [1, 1] [1 * -1, 1 / 4 * -1] (5 / 4) fuel ⟨[1, 1], [1, 0, 0, 1 / 2], [1, 1 / 2], [1, 1 / 4]⟩ =
      .ok (⟨1, 9 / 64, -3 / 64⟩, ⟨[0, 3 / 4], [1, 0, 0, 1 / 2], [0, 3 / 8], [0, 3 / 16]⟩) := by
    have h3 : ([1 * -1, 1 / 4 * -1] : List ℝ) = [-1, -1 / 4] := by norm_num
    rw [h3, lineSearch, lineSearchRun, bowl_phi _ rfl rfl, ok_bind]
    simp only
    rw [if_pos (by norm_num [satisfiesWolfe, dot, leB, ltB, eqB, ratio, FloatOps.ofNat])]
    rfl
  rw [lbfgsStep]
  simp only
  rw [h1, ok_bind, h2, ok_bind]
  simp only
  rw [setIdx_of _ (by simp), ok_bind]
  simp only [bowlState, newCorrection, pure_eq_ok]
  norm_num [ltB, ratio, FloatOps.ofNat, FloatOps.abs, dot, abs_of_nonneg, List.replicate]

theorem bowl_reaches (fuel : Nat) : LbfgsReaches bowl fuel [1, 1] 1 bowlState := .step (.start bowl_start) (bowl_step fuel)

/-- C27 is false in general: on the linear problem with residuals `x` and `y / 2`, started at `(1, 1)`, the second iteration has one
correction, but the direction is that of scaled gradient descent and not the one of that correction. -/
theorem C27_early_iterations_wrong (fuel : Nat) : bowl.DenseOk ∧ LbfgsReaches bowl fuel [1, 1] 1 bowlState ∧
    ∃ d, lbfgsDirection bowlState.history 1 bowlState.gradient = .ok d ∧
      vec 2 d ≠ Spec.lbfgsDirection 2 bowlState.corrections bowlState.gradient := by
  obtain ⟨d, h1, h2⟩ := C27_early_direction bowl_denseOk rfl (bowl_reaches fuel) (by decide)
  refine ⟨bowl_denseOk, bowl_reaches fuel, d, h1, fun h3 => ?_⟩
  have h2 : vec 2 d = -((bfgsMatrix (bfgsScale (bowlState.corrections.getLast?.map (Correction.pair 2))) ([] : List (Pair 2))).mulVec
    (vec 2 bowlState.gradient)) := h2
  rw [h3] at h2
  have h4 := congrFun h2 0
  have hs : vec 2 [-1, -1 / 4] = ![-1, -1 / 4] := by ext i; fin_cases i <;> simp [vec]
  have hy : vec 2 [-1, -1 / 16] = ![-1, -1 / 16] := by ext i; fin_cases i <;> simp [vec]
  have hg : vec 2 [0, 3 / 16] = ![0, 3 / 16] := by ext i; fin_cases i <;> simp [vec]
  have hγ : bfgsScale (some (⟨![-1, -1 / 4], ![-1, -1 / 16], 64 / 65⟩ : Pair 2)) = 260 / 257 := by
    simp only [bfgsScale, dotProduct, Fin.sum_univ_two]
    norm_num
  simp only [Spec.lbfgsDirection, recentCorrections, bowlState, List.getLast?_singleton, Option.map_some, Correction.pair, hs, hy,
    List.length_singleton, hγ, hg] at h4
  simp only [Nat.reduceSub, List.drop_zero, List.map_cons, List.map_nil, Correction.pair, hs, hy] at h4
  norm_num [bfgsMatrix, bfgsUpdate, Matrix.mulVec, Matrix.mul_apply, dotProduct, Fin.sum_univ_two, Matrix.vecMulVec_apply,
    Matrix.one_apply] at h4

end Fiksi
