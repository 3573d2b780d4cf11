import Verif.Props.LbfgsHang
/-!
# C52, C29: L-BFGS does not return on a right angle between lines with a common end point
-/
namespace Fiksi

open Spec FloatOps

/-- A free corner between two fixed points, with a right angle required at it. -/
noncomputable def cornerOps : List (Op ℝ) :=
  [.createPoint 1 0, .createPoint 0 0, .createPoint 4 0, .createLine 0 1, .createLine 0 2, .fix .point 1, .fix .point 2,
   .createCon (.lineLinePerpendicularity 3 4)]

/-- The scaling factor of the system. -/
noncomputable def cornerScale : ℝ := 1 / rootMeanSquares [1, 0, 0, 0, 4, 0]

/-- The subproblem `solve` poses. -/
noncomputable def cornerSub (k : ℝ) : Subsystem ℝ :=
  ⟨[1 * k, 0 * k, 0 * k, 0 * k, 4 * k, 0 * k], [.lineLinePerpendicularity 0 2 0 4], [0], [0, 1]⟩

/-- Build the system and solve it with L-BFGS. -/
noncomputable def solveCorner (optimize : Optimize ℝ) (ord : HashOrder) : R (System ℝ) := do
  let c ← (Client.new ℝ 0).run cornerOps
  c.sys.solve optimize ord ⟨.lBfgs, .none, false⟩

set_option maxRecDepth 10000 in
theorem corner_solve (optimize : Optimize ℝ) (ord : HashOrder) : solveCorner optimize ord =
    solveCorner (fun _ _ _ => optimize .lBfgs (cornerSub cornerScale).problem [1 * cornerScale, 0 * cornerScale]) ord := rfl

/-- The residual at `(x, y)`, and what the dense assembly gives for its derivatives: the contribution of the second line only. -/
noncomputable def cornerResiduals (k x y : ℝ) : List ℝ := [(llperpResGrad x y (0 * k) (0 * k) x y (4 * k) (0 * k)).1]

noncomputable def cornerJacobian (k x y : ℝ) : List ℝ :=
  [(llperpResGrad x y (0 * k) (0 * k) x y (4 * k) (0 * k)).2.getD 4 0, (llperpResGrad x y (0 * k) (0 * k) x y (4 * k) (0 * k)).2.getD 5 0]

theorem corner_dense (k x y a j1 j2 : ℝ) : (cornerSub k).problem.denseJacobian [x, y] [a] [j1, j2] =
    .ok (cornerResiduals k x y, cornerJacobian k x y) := rfl

theorem corner_residuals (k x y : ℝ) : (cornerSub k).problem.residuals [x, y] = .ok (cornerResiduals k x y) := rfl

theorem corner_at (k τ : ℝ) : cornerResiduals k (k * τ) 0 = [k ^ 2 * (τ * (τ - 4))] ∧ cornerJacobian k (k * τ) 0 = [k * τ, 0] := by
  constructor
  · simp only [cornerResiduals, llperpResGrad]
    congr 1
    ring
  · simp only [cornerJacobian, llperpResGrad, List.getD_cons_zero, List.getD_cons_succ]
    congr 1
    · ring
    · congr 1; ring

noncomputable def cornerPhi (k t : ℝ) : ℝ := (k ^ 2 * ((1 + 3 * k ^ 2 * t) * ((1 + 3 * k ^ 2 * t) - 4))) ^ 2
noncomputable def cornerPsi (k t : ℝ) : ℝ :=
  (k ^ 2 * ((1 + 3 * k ^ 2 * t) * ((1 + 3 * k ^ 2 * t) - 4))) * (k * (1 + 3 * k ^ 2 * t) * (3 * k ^ 3))

theorem corner_along (k t : ℝ) : along [1 * k, 0 * k] [3 * k ^ 3, 0] t = [k * (1 + 3 * k ^ 2 * t), 0] := by
  simp only [along, List.zipWith_cons_cons, List.zipWith_nil_right]
  congr 1
  · ring
  · congr 1; ring

theorem corner_line (k : ℝ) : (cornerSub k).problem.Line [1 * k, 0 * k] [3 * k ^ 3, 0] (cornerPhi k) (cornerPsi k) := by
  intro t rs jac h1 h2 _
  obtain ⟨h3, h4⟩ := corner_at k (1 + 3 * k ^ 2 * t)
  match rs, h1 with
  | [a], _ =>
    match jac, h2 with
    | [j1, j2], _ =>
      refine ⟨_, _, by rw [corner_along]; exact corner_dense .., by rw [corner_along]; exact corner_residuals .., rfl, rfl, ?_, ?_⟩
      · rw [h3]
        show ∑ c ∈ Finset.range 1, _ = _
        simp only [Finset.sum_range_succ, Finset.sum_range_zero, List.getD_cons_zero, cornerPhi]
        ring
      · rw [h3, h4]
        show ∑ c ∈ Finset.range 1, _ * ∑ k ∈ Finset.range 2, List.getD _ (c * 2 + k) 0 * _ = _
        simp only [Finset.sum_range_succ, Finset.sum_range_zero, List.getD_cons_zero, List.getD_cons_succ, cornerPsi, Nat.reduceMul, Nat.reduceAdd]
        ring

/-- In the first iteration L-BFGS searches the line between the points, and never returns. -/
theorem corner_lbfgs {k : ℝ} (hk : 0 < k) (hk2 : k ^ 2 = 6 / 17) (fuel : Nat) :
    lbfgs (cornerSub k).problem fuel [1 * k, 0 * k] = .error .outOfFuel := by
  obtain ⟨h3, h4⟩ := corner_at k 1
  have hx : ([1 * k, 0 * k] : List ℝ) = [k * 1, 0] := by rw [zero_mul, mul_comm]
  have hk3 : k * k ^ 3 = 36 / 289 := by
    have : k * k ^ 3 = (k ^ 2) ^ 2 := by ring
    rw [this, hk2]; norm_num
  have hphi : ∀ t, cornerPhi k t = (6 / 17 * ((1 + 18 / 17 * t) * (18 / 17 * t - 3))) ^ 2 := by
    intro t; rw [cornerPhi, hk2]; ring
  have hpsi : ∀ t, cornerPsi k t = 6 / 17 * (108 / 289) * ((1 + 18 / 17 * t) ^ 2 * (18 / 17 * t - 3)) := by
    intro t
    rw [cornerPsi, show k * (1 + 3 * k ^ 2 * t) * (3 * k ^ 3) = 3 * (k * k ^ 3) * (1 + 3 * k ^ 2 * t) by ring, hk3, hk2]; ring
  have hdense := corner_dense k (k * 1) 0 0 0 0
  have hsum : sumSquares (cornerResiduals k (k * 1) 0) = cornerPhi k 0 := by
    rw [hphi, h3, hk2]; simp only [sumSquares_real, List.map_cons, List.map_nil, List.sum_cons, List.sum_nil]; norm_num
  have hgrad : computeGradient (cornerJacobian k (k * 1) 0) (cornerResiduals k (k * 1) 0) 2 = .ok [-(3 * k ^ 3), 0] := by
    rw [h3, h4]
    have : computeGradient [k * 1, 0] [k ^ 2 * (1 * (1 - 4))] 2 = .ok [0 + k * 1 * (k ^ 2 * (1 * (1 - 4))), 0 + 0 * (k ^ 2 * (1 * (1 - 4)))] := rfl
    rw [this]
    congr 2
    · ring
    · congr 1; ring
  have hstart : lbfgsStart (cornerSub k).problem [1 * k, 0 * k] = .ok (some ⟨[1 * k, 0 * k], cornerJacobian k (k * 1) 0, cornerResiduals k (k * 1) 0,
      [-(3 * k ^ 3), 0], List.replicate 5 ⟨[0, 0], [0, 0], 0⟩, cornerPhi k 0, []⟩) := by
    rw [lbfgsStart]
    have h : (cornerSub k).problem.denseJacobian [1 * k, 0 * k] (List.replicate (cornerSub k).problem.numResiduals 0)
      (List.replicate ((cornerSub k).problem.numResiduals * (cornerSub k).problem.numVariables) 0) = .ok
        (cornerResiduals k (k * 1) 0, cornerJacobian k (k * 1) 0) := by rw [hx]; exact hdense
    simp only [h, ok_bind, hsum]
    rw [if_neg (by rw [ltB_iff, ratio_real, hphi]; norm_num), show (cornerSub k).problem.numVariables = 2 from rfl, hgrad]
    rfl
  have hdir : lbfgsDirection (List.replicate 5 (⟨[0, 0], [0, 0], 0⟩ : Correction ℝ)) 0 [-(3 * k ^ 3), 0] = .ok [3 * k ^ 3, 0] := by
    have : lbfgsDirection (List.replicate 5 (⟨[0, 0], [0, 0], 0⟩ : Correction ℝ)) 0 [-(3 * k ^ 3), 0] = .ok [-(3 * k ^ 3) * -1, 0 * -1] := rfl
    rw [this]; norm_num
  have hfresh : EvalState.Fresh (cornerSub k).problem ⟨[1 * k, 0 * k], cornerJacobian k (k * 1) 0, cornerResiduals k (k * 1) 0, [-(3 * k ^ 3), 0]⟩ :=
    ⟨⟨rfl, rfl, rfl, rfl⟩, .next .zero rfl rfl hdense⟩
  have hdot : dot [-(3 * k ^ 3), 0] [3 * k ^ 3, 0] = cornerPsi k 0 := by
    rw [cornerPsi]; simp [dot]; ring
  have hc : secant (pt (cornerPhi k) (cornerPsi k) 0) (pt (cornerPhi k) (cornerPsi k) 5) = 73695 / 461250 := by
    simp only [secant, pt]
    rw [hpsi, hpsi]
    norm_num
  have hneg : ∀ t : ℝ, 0 ≤ t → t ≤ 73695 / 461250 → cornerPsi k t < 0 := by
    intro t h0 h1
    rw [hpsi]
    have : 0 < (1 + 18 / 17 * t) ^ 2 := by positivity
    have h9 : 18 / 17 * t - 3 < 0 := by linarith
    nlinarith [mul_neg_of_pos_of_neg this h9]
  have hacc : ¬ Accepted (cornerPhi k) (cornerPsi k) 1 := by
    rintro (⟨h, -⟩ | ⟨h, -, -⟩)
    · have h : cornerPhi k 1 ≤ cornerPhi k 0 + 1 * (1 / 20000 * (2 * cornerPsi k 0)) := h
      rw [hphi, hphi, hpsi] at h
      norm_num at h
    · have h : cornerPhi k 1 ≤ cornerPhi k 0 + 1 / 10 ^ 6 := h
      rw [hphi, hphi] at h
      norm_num at h
  have hsearch := lineSearch_hangs (corner_line k) rfl rfl hfresh hdot hc (by norm_num) (by norm_num) hacc hneg
    (by rw [hphi, hphi]; norm_num) fuel
  rw [lbfgs, hstart, ok_bind]
  simp only
  rw [lbfgsLoop, lbfgsStep]
  simp only
  rw [hdir, ok_bind, hsearch]
  rfl

theorem cornerScale_sq : 0 < cornerScale ∧ cornerScale ^ 2 = 6 / 17 := by
  have h1 : meanSquares ([1, 0, 0, 0, 4, 0] : List ℝ) = 17 / 6 := by
    simp only [meanSquares, sumSquares_real, List.map_cons, List.map_nil, List.sum_cons, List.sum_nil, ofNat_real, List.length_cons,
      List.length_nil]
    norm_num
  have h2 : cornerScale = 1 / Real.sqrt (17 / 6) := by rw [cornerScale, rootMeanSquares, h1]; rfl
  rw [h2]
  refine ⟨by positivity, ?_⟩
  rw [div_pow, Real.sq_sqrt (by norm_num)]
  norm_num

/-- C52 is false for L-BFGS also with a continuous error: a right angle is required at the point (1, 0) between the lines to (0, 0) and (4, 0).
The lines have an end in common, so the dense assembly keeps half of its derivative (`C29_dense_fails_on_shared_points`), which has the wrong
sign: the search climbs while it sees a negative slope, its bisection never ends, and `solve` never returns. -/
theorem C52_lbfgs_shared_corner_never_returns : ∃ c, Reaches 0 cornerOps c ∧ (∀ con ∈ ((Store.empty ℝ).run cornerOps).cons,
    con = .lineLinePerpendicularity 3 4) ∧ ∀ (fuel : Nat) (ord : HashOrder),
    c.sys.solve (fun _ p x => lbfgs p fuel x) ord ⟨.lBfgs, .none, false⟩ = .error .outOfFuel := by
  obtain ⟨c, h⟩ := exists_reaches (F := ℝ) 0 cornerOps (by
    simp [cornerOps, Store.LegalRun, Store.Legal, Store.empty, Store.step, Store.IsPoint, Store.IsLine, Store.ConOk, Elem.kind]) (by simp [cornerOps])
  refine ⟨c, h, by simp [cornerOps, Store.run, Store.empty, Store.step], fun fuel ord => ?_⟩
  have h1 := corner_solve (fun _ p x => lbfgs p fuel x) ord
  obtain ⟨hk, hk2⟩ := cornerScale_sq
  rw [corner_lbfgs hk hk2] at h1
  have h9 : solveCorner (fun _ _ _ => .error .outOfFuel) ord = .error .outOfFuel := rfl
  rw [h9, solveCorner, h.run] at h1
  exact h1

end Fiksi
