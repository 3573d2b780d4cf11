import Verif.Props.LineSearch
import Verif.Props.LmNan
import Mathlib.Analysis.Real.Pi.Bounds
/-!
# C52, C58: L-BFGS does not return when the objective jumps along a line
-/
namespace Fiksi

open Spec FloatOps

/-! ## Lines on which the bisection goes on for ever -/

section
variable {p : Problem ℝ} {x d : List ℝ} {φ ψ : ℝ → ℝ} (hline : p.Line x d φ ψ) (hx : x.length = p.numVariables)
  (hd : d.length = p.numVariables)
include hline hx hd

/-- If the slope is negative on the whole interval, the bisection never ends. -/
theorem updateLoop_hangs (phi0 : ℝ) {lo hi : ℝ} (hneg : ∀ t, lo ≤ t → t ≤ hi → ψ t < 0) : ∀ (fuel : Nat) {st : EvalState ℝ}, st.Fresh p →
    ∀ {a b : ℝ}, lo ≤ a → a ≤ b → b ≤ hi → updateLoop p x d phi0 fuel st (pt φ ψ a) (pt φ ψ b) = .error .outOfFuel := by
  intro fuel
  induction fuel with
  | zero => intros; rfl
  | succ fuel ih =>
    intro st hst a b ha hab hb
    have hmid : (1 - ratio 5 10) * (pt φ ψ a).p + ratio 5 10 * (pt φ ψ b).p = (a + b) / 2 := by
      rw [ratio_real, pt, pt]
      push_cast
      ring
    obtain ⟨st', h1, h2⟩ := hline.eval hx hd hst ((a + b) / 2)
    rw [updateLoop, hmid, h1, ok_bind]
    simp only
    rw [if_neg (by rw [leB_iff]; exact not_le.2 (hneg _ (by linarith) (by linarith)))]
    split
    · exact ih h2 (by linarith) (by linarith) hb
    · exact ih h2 ha (by linarith) (by linarith)

/-- If neither 1 nor the first secant step is accepted, and the objective at the latter is above the start although the slope is negative
all the way there, the search never returns. -/
theorem lineSearch_hangs {st : EvalState ℝ} (hst : st.Fresh p) (hdphi : dot st.gradient d = ψ 0) {c : ℝ}
    (hc : secant (pt φ ψ 0) (pt φ ψ 5) = c) (h0 : 0 ≤ c) (h5 : c ≤ 5) (h1 : ¬ Accepted φ ψ 1) (hneg : ∀ t, 0 ≤ t → t ≤ c → ψ t < 0)
    (hup : φ 0 + 1 / 10 ^ 6 < φ c) (fuel : Nat) : lineSearch p x d (φ 0) fuel st = .error .outOfFuel := by
  have hψ0 := hneg 0 le_rfl h0
  have h2 : ¬ Accepted φ ψ c := by
    rintro (⟨h, -⟩ | ⟨h, -, -⟩)
    · have h : φ c ≤ φ 0 + c * (1 / 20000 * (2 * ψ 0)) := h
      nlinarith
    · have h : φ c ≤ φ 0 + 1 / 10 ^ 6 := h
      linarith
  obtain ⟨st1, e1, f1⟩ := hline.eval hx hd hst 1
  obtain ⟨st2, e2, f2⟩ := hline.eval hx hd f1 5
  obtain ⟨st3, e3, f3⟩ := hline.eval hx hd f2 c
  have e0 : (⟨0, φ 0, ψ 0⟩ : Param ℝ) = pt φ ψ 0 := rfl
  rw [lineSearch, hdphi, lineSearchRun, e1, ok_bind]
  simp only
  rw [if_neg (by rw [satisfiesWolfe_iff]; exact h1), ofNat_real, show ((5 : Nat) : ℝ) = 5 by norm_num, e2, ok_bind]
  simp only
  rw [e0, search, secant2, hc, e3, ok_bind]
  simp only
  rw [if_neg (by rw [satisfiesWolfe_iff]; exact h2), update_eq, if_neg (by push Not; exact ⟨h0, h5⟩),
    if_neg (not_le.2 (hneg c h0 le_rfl)), if_neg (not_le.2 hup), updateLoop_hangs hline hx hd (φ 0) hneg fuel f3 le_rfl h0 le_rfl]
  rfl

end

/-! ## A system with such a line -/

/-- A point between two points at distance 10 from both, on the way to the place where it should be passing the corner of an angle. -/
noncomputable def trapOps : List (Op ℝ) :=
  [.createPoint 4 0, .createPoint 6 0, .createPoint 6 1, .createPoint 0 3, .createPoint 0 (-3),
   .fix .point 1, .fix .point 2, .fix .point 3, .fix .point 4,
   .createCon (.pointPointDistance 0 3 10), .createCon (.pointPointDistance 0 4 10), .createCon (.pointPointPointAngle 0 1 2 (-(Real.pi / 2)))]

/-- The scaling factor of the system. -/
noncomputable def trapScale : ℝ := 1 / rootMeanSquares [4, 0, 6, 0, 6, 1, 0, 3, 0, -3, 10, 10]

/-- The subproblem `solve` poses. -/
noncomputable def trapSub (k : ℝ) : Subsystem ℝ :=
  ⟨[4 * k, 0 * k, 6 * k, 0 * k, 6 * k, 1 * k, 0 * k, 3 * k, 0 * k, -3 * k],
    [.pointPointDistance 0 6 (k * 10), .pointPointDistance 0 8 (k * 10), .pointPointPointAngle 0 2 4 (-(Real.pi / 2))], [0, 1, 2], [0, 1]⟩

/-- Build the system and solve it with L-BFGS. -/
noncomputable def solveTrap (optimize : Optimize ℝ) (ord : HashOrder) : R (System ℝ) := do
  let c ← (Client.new ℝ 0).run trapOps
  c.sys.solve optimize ord ⟨.lBfgs, .none, false⟩

set_option maxRecDepth 10000 in
theorem trap_solve (optimize : Optimize ℝ) (ord : HashOrder) : solveTrap optimize ord =
    solveTrap (fun _ _ _ => optimize .lBfgs (trapSub trapScale).problem [4 * trapScale, 0 * trapScale]) ord := rfl

/-- The residuals and the Jacobian at `(x, y)`. -/
noncomputable def trapResiduals (k x y : ℝ) : List ℝ :=
  [(ppdResGrad x y (0 * k) (3 * k) (k * 10)).1, (ppdResGrad x y (0 * k) (-3 * k) (k * 10)).1,
    (pppaResGrad x y (6 * k) (0 * k) (6 * k) (1 * k) (-(Real.pi / 2))).1]

noncomputable def trapJacobian (k x y : ℝ) : List ℝ :=
  [(ppdResGrad x y (0 * k) (3 * k) (k * 10)).2.getD 0 0, (ppdResGrad x y (0 * k) (3 * k) (k * 10)).2.getD 1 0,
    (ppdResGrad x y (0 * k) (-3 * k) (k * 10)).2.getD 0 0, (ppdResGrad x y (0 * k) (-3 * k) (k * 10)).2.getD 1 0,
    (pppaResGrad x y (6 * k) (0 * k) (6 * k) (1 * k) (-(Real.pi / 2))).2.getD 0 0,
    (pppaResGrad x y (6 * k) (0 * k) (6 * k) (1 * k) (-(Real.pi / 2))).2.getD 1 0]

theorem trap_dense (k x y a b c j1 j2 j3 j4 j5 j6 : ℝ) : (trapSub k).problem.denseJacobian [x, y] [a, b, c] [j1, j2, j3, j4, j5, j6] =
    .ok (trapResiduals k x y, trapJacobian k x y) := rfl

theorem trap_residuals (k x y : ℝ) : (trapSub k).problem.residuals [x, y] = .ok (trapResiduals k x y) := rfl

/-- The angle residual on the axis: it jumps where the point passes the corner. -/
noncomputable def trapJump (τ : ℝ) : ℝ := if τ < 6 then 0 else Real.pi

theorem trap_angle {k : ℝ} (hk : 0 < k) (τ : ℝ) :
    (pppaResGrad (k * τ) 0 (6 * k) (0 * k) (6 * k) (1 * k) (-(Real.pi / 2))).1 = trapJump τ := by
  have e1 : atan2 (1 * k - 0 * k) (6 * k - 6 * k) = Real.pi / 2 := by
    show Complex.arg ⟨6 * k - 6 * k, 1 * k - 0 * k⟩ = _
    have : (⟨6 * k - 6 * k, 1 * k - 0 * k⟩ : ℂ) = (k : ℂ) * Complex.I := by apply Complex.ext <;> simp
    rw [this, Complex.arg_real_mul _ hk, Complex.arg_I]
  have e2 : atan2 (0 - 0 * k) (k * τ - 6 * k) = if τ < 6 then Real.pi else 0 := by
    show Complex.arg ⟨k * τ - 6 * k, 0 - 0 * k⟩ = _
    have : (⟨k * τ - 6 * k, 0 - 0 * k⟩ : ℂ) = ((k * (τ - 6) : ℝ) : ℂ) := by apply Complex.ext <;> simp; ring
    rw [this]
    split
    case isTrue h => exact Complex.arg_ofReal_of_neg (by nlinarith)
    case isFalse h => exact Complex.arg_ofReal_of_nonneg (mul_nonneg hk.le (by linarith))
  have hpi := Real.pi_pos
  simp only [pppaResGrad]
  rw [e1, e2, wrapAngle_real, trapJump, wrapR]
  split
  · rw [if_neg (by linarith), if_neg (by linarith)]; ring
  · rw [if_neg (by linarith), if_neg (by linarith)]; ring

/-- The distance, in units of the scale. -/
noncomputable def trapDist (τ : ℝ) : ℝ := Real.sqrt (τ ^ 2 + 9)

theorem trapDist_pos (τ : ℝ) : 0 < trapDist τ := Real.sqrt_pos.2 (by positivity)

theorem trap_ppd {k : ℝ} (hk : 0 < k) (τ : ℝ) {s : ℝ} (hs : s ^ 2 = 9) :
    ppdResGrad (k * τ) 0 (0 * k) (s * k) (k * 10) = (k * (trapDist τ - 10),
      [τ / trapDist τ, -s / trapDist τ, -(τ / trapDist τ), s / trapDist τ]) := by
  have e : sqrt (square (k * τ - 0 * k) + square (0 - s * k)) = k * trapDist τ := by
    show Real.sqrt _ = _
    rw [trapDist, show square (k * τ - 0 * k) + square (0 - s * k) = k ^ 2 * (τ ^ 2 + 9) by rw [← hs]; simp only [square]; ring,
      Real.sqrt_mul (by positivity), Real.sqrt_sq hk.le]
  have h := trapDist_pos τ
  simp only [ppdResGrad]
  rw [e]
  congr 1
  · ring
  · congr 1
    · field_simp; ring
    congr 1
    · field_simp; ring
    congr 1
    · field_simp; ring
    congr 1
    · field_simp; ring

noncomputable def trapPhi (k t : ℝ) : ℝ := 2 * (k * (trapDist (4 + 8 * t) - 10)) ^ 2 + trapJump (4 + 8 * t) ^ 2
noncomputable def trapPsi (k t : ℝ) : ℝ := 16 * k ^ 2 * ((trapDist (4 + 8 * t) - 10) * (4 + 8 * t) / trapDist (4 + 8 * t))

theorem trap_along (k t : ℝ) : along [4 * k, 0 * k] [8 * k, 0] t = [k * (4 + 8 * t), 0] := by
  simp only [along, List.zipWith_cons_cons, List.zipWith_nil_right]
  congr 1
  · ring
  · congr 1; ring

theorem trap_at {k : ℝ} (hk : 0 < k) (τ : ℝ) : ∃ e : ℝ, trapResiduals k (k * τ) 0 =
    [k * (trapDist τ - 10), k * (trapDist τ - 10), trapJump τ] ∧
    trapJacobian k (k * τ) 0 = [τ / trapDist τ, -3 / trapDist τ, τ / trapDist τ, 3 / trapDist τ, 0, e] := by
  refine ⟨(pppaResGrad (k * τ) 0 (6 * k) (0 * k) (6 * k) (1 * k) (-(Real.pi / 2))).2.getD 1 0, ?_, ?_⟩
  rotate_left
  · rw [trapJacobian, trap_ppd hk τ (s := 3) (by norm_num), trap_ppd hk τ (s := -3) (by norm_num)]
    have e : (pppaResGrad (k * τ) 0 (6 * k) (0 * k) (6 * k) (1 * k) (-(Real.pi / 2))).2.getD 0 0 = 0 := by
      simp [pppaResGrad]
    rw [e]
    simp only [List.getD_cons_zero, List.getD_cons_succ, neg_neg]
  · rw [trapResiduals, trap_ppd hk τ (s := 3) (by norm_num), trap_ppd hk τ (s := -3) (by norm_num), trap_angle hk]

theorem trap_line {k : ℝ} (hk : 0 < k) : (trapSub k).problem.Line [4 * k, 0 * k] [8 * k, 0] (trapPhi k) (trapPsi k) := by
  intro t rs jac h1 h2 _
  obtain ⟨e, h3, h4⟩ := trap_at hk (4 + 8 * t)
  match rs, h1 with
  | [a, b, c], _ =>
    match jac, h2 with
    | [j1, j2, j3, j4, j5, j6], _ =>
      refine ⟨_, _, by rw [trap_along]; exact trap_dense .., by rw [trap_along]; exact trap_residuals .., rfl, rfl, ?_, ?_⟩
      · rw [h3]
        show ∑ c ∈ Finset.range 3, _ = _
        simp only [Finset.sum_range_succ, Finset.sum_range_zero, List.getD_cons_zero, List.getD_cons_succ, trapPhi]
        ring
      · rw [h3, h4]
        show ∑ c ∈ Finset.range 3, _ * ∑ k ∈ Finset.range 2, List.getD _ (c * 2 + k) 0 * _ = _
        simp only [Finset.sum_range_succ, Finset.sum_range_zero, List.getD_cons_zero, List.getD_cons_succ, trapPsi, Nat.reduceMul, Nat.reduceAdd]
        ring

theorem trapDist_four : trapDist 4 = 5 := by
  rw [trapDist, show (4 : ℝ) ^ 2 + 9 = 5 ^ 2 by norm_num, Real.sqrt_sq (by norm_num)]

/-- In the first iteration L-BFGS searches the line along the axis, and never returns. -/
theorem trap_lbfgs {k : ℝ} (hk : 0 < k) (hk1 : 50 * k ^ 2 ≤ 9) (hk2 : 1 ≤ 10000 * (50 * k ^ 2)) (fuel : Nat) :
    lbfgs (trapSub k).problem fuel [4 * k, 0 * k] = .error .outOfFuel := by
  obtain ⟨e, h3, h4⟩ := trap_at hk 4
  have hx : ([4 * k, 0 * k] : List ℝ) = [k * 4, 0] := by rw [zero_mul, mul_comm]
  have hj4 : trapJump 4 = 0 := by rw [trapJump, if_pos (by norm_num)]
  rw [trapDist_four, hj4] at h3
  rw [trapDist_four] at h4
  have hphi0 : trapPhi k 0 = 50 * k ^ 2 := by
    rw [trapPhi, show (4 : ℝ) + 8 * 0 = 4 by norm_num, trapDist_four, hj4]; ring
  have hpsi0 : trapPsi k 0 = -(64 * k ^ 2) := by
    rw [trapPsi, show (4 : ℝ) + 8 * 0 = 4 by norm_num, trapDist_four]; ring
  have hdense := trap_dense k (k * 4) 0 0 0 0 0 0 0 0 0 0
  have hsum : sumSquares (trapResiduals k (k * 4) 0) = trapPhi k 0 := by
    rw [hphi0, h3]; simp only [sumSquares_real, List.map_cons, List.map_nil, List.sum_cons, List.sum_nil]; ring
  have hgrad : computeGradient (trapJacobian k (k * 4) 0) (trapResiduals k (k * 4) 0) 2 = .ok [-(8 * k), 0] := by
    rw [h3, h4]
    have : computeGradient [4 / 5, -3 / 5, 4 / 5, 3 / 5, 0, e] [k * (5 - 10), k * (5 - 10), 0] 2 =
      .ok [0 + 4 / 5 * (k * (5 - 10)) + 4 / 5 * (k * (5 - 10)) + 0 * 0, 0 + -3 / 5 * (k * (5 - 10)) + 3 / 5 * (k * (5 - 10)) + e * 0] := rfl
    rw [this]
    congr 2
    · ring
    · congr 1; ring
  have hstart : lbfgsStart (trapSub k).problem [4 * k, 0 * k] = .ok (some ⟨[4 * k, 0 * k], trapJacobian k (k * 4) 0, trapResiduals k (k * 4) 0,
      [-(8 * k), 0], List.replicate 5 ⟨[0, 0], [0, 0], 0⟩, trapPhi k 0, []⟩) := by
    rw [lbfgsStart]
    have h : (trapSub k).problem.denseJacobian [4 * k, 0 * k] (List.replicate (trapSub k).problem.numResiduals 0)
      (List.replicate ((trapSub k).problem.numResiduals * (trapSub k).problem.numVariables) 0) = .ok
        (trapResiduals k (k * 4) 0, trapJacobian k (k * 4) 0) := by rw [hx]; exact hdense
    simp only [h, ok_bind, hsum]
    rw [if_neg (by rw [ltB_iff, ratio_real, hphi0]; push_cast; linarith), show (trapSub k).problem.numVariables = 2 from rfl, hgrad]
    rfl
  have hdir : lbfgsDirection (List.replicate 5 (⟨[0, 0], [0, 0], 0⟩ : Correction ℝ)) 0 [-(8 * k), 0] = .ok [8 * k, 0] := by
    have : lbfgsDirection (List.replicate 5 (⟨[0, 0], [0, 0], 0⟩ : Correction ℝ)) 0 [-(8 * k), 0] = .ok [-(8 * k) * -1, 0 * -1] := rfl
    rw [this]; norm_num
  have hfresh : EvalState.Fresh (trapSub k).problem ⟨[4 * k, 0 * k], trapJacobian k (k * 4) 0, trapResiduals k (k * 4) 0, [-(8 * k), 0]⟩ :=
    ⟨⟨rfl, rfl, rfl, rfl⟩, .next .zero rfl rfl hdense⟩
  have hdot : dot [-(8 * k), 0] [8 * k, 0] = trapPsi k 0 := by
    rw [hpsi0]; simp [dot]; ring
  have hq1 : 44 < trapDist (4 + 8 * 5) := by rw [trapDist]; exact Real.lt_sqrt_of_sq_lt (by norm_num)
  have hq2 : trapDist (4 + 8 * 5) < 45 := by rw [trapDist]; exact (Real.sqrt_lt' (by norm_num)).2 (by norm_num)
  set q := trapDist (4 + 8 * 5) with hq
  set g := (q - 10) * (4 + 8 * 5) / q with hg
  have hg1 : 34 < g := by rw [hg, lt_div_iff₀ (by linarith)]; linarith
  have hg2 : g < 35 := by rw [hg, div_lt_iff₀ (by linarith)]; linarith
  have hpsi5 : trapPsi k 5 = 16 * k ^ 2 * g := by rw [trapPsi]
  have hk0 : 0 < k ^ 2 := by positivity
  have hc : secant (pt (trapPhi k) (trapPsi k) 0) (pt (trapPhi k) (trapPsi k) 5) = 20 / (g + 4) := by
    simp only [secant, pt]
    rw [hpsi0, hpsi5]
    rw [div_eq_div_iff (by nlinarith) (by linarith)]
    ring
  have hc1 : 1 / 2 < 20 / (g + 4) := by rw [lt_div_iff₀ (by linarith)]; linarith
  have hc2 : 20 / (g + 4) < 10 / 19 := by rw [div_lt_iff₀ (by linarith)]; linarith
  have hpi : 9 + 1 / 10 < Real.pi ^ 2 := by nlinarith [Real.pi_gt_d2]
  have hjump : ∀ t : ℝ, 1 / 2 ≤ t → 9 + 1 / 10 < trapPhi k t := by
    intro t ht
    rw [trapPhi, trapJump, if_neg (by linarith)]
    nlinarith [sq_nonneg (k * (trapDist (4 + 8 * t) - 10))]
  have hneg : ∀ t : ℝ, 0 ≤ t → t ≤ 20 / (g + 4) → trapPsi k t < 0 := by
    intro t h0 h1
    have hd : trapDist (4 + 8 * t) < 10 := by
      rw [trapDist]
      exact (Real.sqrt_lt' (by norm_num)).2 (by nlinarith)
    have hp := trapDist_pos (4 + 8 * t)
    rw [trapPsi]
    refine mul_neg_of_pos_of_neg (by positivity) (div_neg_of_neg_of_pos (mul_neg_of_neg_of_pos (by linarith) (by linarith)) hp)
  have hacc : ¬ Accepted (trapPhi k) (trapPsi k) 1 := by
    have h1 := hjump 1 (by norm_num)
    rintro (⟨h, -⟩ | ⟨h, -, -⟩)
    · have h : trapPhi k 1 ≤ trapPhi k 0 + 1 * (1 / 20000 * (2 * trapPsi k 0)) := h
      rw [hphi0, hpsi0] at h
      nlinarith
    · have h : trapPhi k 1 ≤ trapPhi k 0 + 1 / 10 ^ 6 := h
      rw [hphi0] at h
      norm_num at h
      linarith
  have hsearch := lineSearch_hangs (trap_line hk) rfl rfl hfresh hdot hc (by linarith) (by linarith) hacc hneg
    (by rw [hphi0]; have := hjump _ hc1.le; norm_num; linarith) fuel
  rw [lbfgs, hstart, ok_bind]
  simp only
  rw [lbfgsLoop, lbfgsStep]
  simp only
  rw [hdir, ok_bind, hsearch]
  rfl

theorem trapScale_sq : 0 < trapScale ∧ trapScale ^ 2 = 12 / 307 := by
  have h1 : meanSquares ([4, 0, 6, 0, 6, 1, 0, 3, 0, -3, 10, 10] : List ℝ) = 307 / 12 := by
    simp only [meanSquares, sumSquares_real, List.map_cons, List.map_nil, List.sum_cons, List.sum_nil, ofNat_real, List.length_cons,
      List.length_nil]
    norm_num
  have h2 : trapScale = 1 / Real.sqrt (307 / 12) := by rw [trapScale, rootMeanSquares, h1]; rfl
  rw [h2]
  refine ⟨by positivity, ?_⟩
  rw [div_pow, Real.sq_sqrt (by norm_num)]
  norm_num

/-- C52 is false for L-BFGS in exact arithmetic too, without NaN: the point at (4, 0), which is to have distance 10 from (0, 3) and (0, -3),
moves along the axis and passes the corner (6, 0) of an angle constraint, where the objective jumps. Its slope is negative on both sides of the
jump, so the bisection in `update` goes on for ever, and `solve` never returns. -/
theorem C52_lbfgs_jump_never_returns : ∃ c, Reaches 0 trapOps c ∧ ∀ (fuel : Nat) (ord : HashOrder),
    c.sys.solve (fun _ p x => lbfgs p fuel x) ord ⟨.lBfgs, .none, false⟩ = .error .outOfFuel := by
  obtain ⟨c, h⟩ := exists_reaches (F := ℝ) 0 trapOps (by
    simp [trapOps, Store.LegalRun, Store.Legal, Store.empty, Store.step, Store.IsPoint, Store.ConOk, Elem.kind]) (by simp [trapOps])
  refine ⟨c, h, fun fuel ord => ?_⟩
  have h1 := trap_solve (fun _ p x => lbfgs p fuel x) ord
  obtain ⟨hk, hk2⟩ := trapScale_sq
  rw [trap_lbfgs hk (by rw [hk2]; norm_num) (by rw [hk2]; norm_num)] at h1
  have h9 : solveTrap (fun _ _ _ => .error .outOfFuel) ord = .error .outOfFuel := rfl
  rw [h9, solveTrap, h.run] at h1
  exact h1

end Fiksi
