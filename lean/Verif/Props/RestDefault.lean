import Verif.Props.Rest
import Verif.Props.Rng
/-!
# C61 does not hold with perturbation
-/
namespace Fiksi
open Spec

theorem lm_rests_ok {p : Problem ℝ} {pattern : List (Nat × Nat)} (hp : p.Total pattern) {S : Nat → Nat → Nat → Prop} {ls : LeastSquares ℝ} (hls : ls.Safe S)
    (hS : S p.numResiduals p.numVariables (pattern.length + p.numVariables)) {fuel : Nat} {x : List ℝ} (hx : x.length = p.numVariables) (hc : p.Consistent)
    (hr : ∀ r, p.residuals x = .ok r → (r.map (fun y => y * y)).sum < 1 / 10 ^ 8) : levenbergMarquardt p ls fuel x = .ok x := by
  have key : ∃ x', levenbergMarquardt p ls fuel x = .ok x' := by
    obtain ⟨rt, q1, q2, ⟨r', q3, q4⟩, q5, q6⟩ := lmJacobian_ok hp hx (rs := List.replicate p.numResiduals 0) (by simp)
    obtain ⟨sym, h1, h2⟩ := hls p.numResiduals p.numVariables rt.2 q5 (lmJacobian_size q6 ▸ hS)
    rw [levenbergMarquardt, lmRun, lmStart, q1, ok_bind, h1, ok_bind]
    rw [pure_eq_ok, ok_bind, lmOuter, if_pos]
    · exact ⟨_, rfl⟩
    have h5 := hr r' q3
    simp only [FloatOps.ltB, decide_eq_true_eq, normSquared_real, ratio, FloatOps.ofNat]
    rw [← normSquared_real, q4, normSquared_real]
    norm_num at h5 ⊢
    exact h5
  obtain ⟨x', h⟩ := key
  rw [h, C61_lm_rests hc h hr]

/-- Two points in the origin that shall coincide, and a length of 1. -/
noncomputable def originPairOps : List (Op ℝ) := [.createPoint 0 0, .createPoint 0 0, .createLength 1, .createCon (.pointPointCoincidence 0 1)]

/-- The `k`-th value after the perturbation. -/
noncomputable def originNoise (scale : ℝ) (k : Nat) : ℝ :=
  let x := 0 * (1 / scale)
  x + (x * (1 / FloatOps.ofNat 8196) * (rngNextF64 (F := ℝ) (rngNext^[2 * k] 42)).1 + (1 / FloatOps.ofNat 65568) * (rngNextF64 (F := ℝ) (rngNext^[2 * k + 1] 42)).1)

/-- The scale of that system. -/
noncomputable def originScale : ℝ := rootMeanSquares [0, 0, 0, 0, 1]

/-- What is handed to the optimiser. -/
noncomputable def originPairSub : Subsystem ℝ :=
  ⟨[originNoise originScale 0, originNoise originScale 1, originNoise originScale 2, originNoise originScale 3, 1 * (1 / originScale)],
    [.variableVariableEquality 0 2, .variableVariableEquality 1 3], [0, 1], [0, 1, 2, 3]⟩


set_option maxRecDepth 10000 in
theorem originPair_sys {c : Client ℝ} (h : Reaches 0 originPairOps c) : c.sys.graph.components = [⟨{1, 0}, {0}⟩] ∧ c.sys.elements = [.point 0, .point 2, .length 4] ∧
    c.sys.vars = [0, 0, 0, 0, 1] ∧ c.sys.fixedVariables = ∅ ∧ c.sys.expressions = [.variableVariableEquality 0 2, .variableVariableEquality 1 3] ∧
    c.sys.constraints = [⟨.pointPointCoincidence, 0⟩] := by
  have key : (do let c ← (Client.new ℝ 0).run originPairOps
                 pure (c.sys.graph.components, c.sys.elements, c.sys.vars, c.sys.fixedVariables, c.sys.expressions, c.sys.constraints) : R _) =
    .ok ([⟨{1, 0}, {0}⟩], [.point 0, .point 2, .length 4], [0, 0, 0, 0, 1], ∅, [.variableVariableEquality 0 2, .variableVariableEquality 1 3], [⟨.pointPointCoincidence, 0⟩]) := rfl
  rw [h.run, ok_bind] at key
  simpa [pure_eq_ok] using key

theorem noise_bound (sc : ℝ) (k : Nat) : 0 ≤ originNoise sc k ∧ originNoise sc k ≤ 1 / 65568 := by
  have h := C28_unit_interval (rngNext^[2 * k + 1] 42) 1 _ (List.mem_cons_self)
  simp only [originNoise, FloatOps.ofNat]
  constructor
  · have := h.1
    simp only [zero_mul, zero_add]
    positivity
  · simp only [zero_mul, zero_add]
    have h2 : (((65568 : ℕ) : ℝ)) = 65568 := by norm_num
    rw [h2]
    linarith [h.2]

theorem noise_zero (sc : ℝ) : originNoise sc 0 ≠ 0 := by
  simp only [originNoise, FloatOps.ofNat, zero_mul, zero_add, rngNextF64]
  have : rngNext (rngNext^[2 * 0 + 1] 42) = 378494188 := by decide +kernel
  rw [this]
  norm_num

theorem noise_apart (sc : ℝ) : originNoise sc 0 ≠ originNoise sc 2 := by
  simp only [originNoise, FloatOps.ofNat, zero_mul, zero_add, rngNextF64]
  have h1 : rngNext (rngNext^[2 * 0 + 1] 42) = 378494188 := by decide +kernel
  have h2 : rngNext (rngNext^[2 * 2 + 1] 42) = 110225632 := by decide +kernel
  rw [h1, h2]
  norm_num

theorem originPair_loop {c : Client ℝ} (h : Reaches 0 originPairOps c) (opt : Optimize ℝ) (ord : HashOrder) (hopt : opt .levenbergMarquardt originPairSub.problem
      [originNoise originScale 0, originNoise originScale 1, originNoise originScale 2, originNoise originScale 3] =
    .ok [originNoise originScale 0, originNoise originScale 1, originNoise originScale 2, originNoise originScale 3]) :
    ∃ s', c.sys.solve opt ord .default = .ok s' ∧ s' = { c.sys with vars := [originScale * originNoise originScale 0, originScale * originNoise originScale 1,
      originScale * originNoise originScale 2, originScale * originNoise originScale 3, 1] } := by
  obtain ⟨h1, h2, h3, h4, h5, h6⟩ := originPair_sys h
  have hsc : c.sys.scale = originScale := by
    unfold System.scale originScale
    rw [h3, h5]
    rfl
  have hfree : c.sys.freeVariables {1, 0} = .ok {0, 1, 2, 3} := by
    unfold System.freeVariables
    rw [show ascending {1, 0} = [0, 1] by decide +kernel, h2, h4]
    have : (({0, 1, 2, 3} : Finset Nat)) = ∅ ∪ ((EncodedElement.point 0).variableIndices.toFinset \ ∅) ∪ ((EncodedElement.point 2).variableIndices.toFinset \ ∅) := by decide
    rw [this]
    rfl
  have hasc : ascending {0, 1, 2, 3} = [0, 1, 2, 3] := by decide +kernel
  have hcons : (ascending {0}).mapM c.sys.constraintExpressions = .ok [[0, 1]] := by
    rw [show ascending {0} = [0] by decide +kernel, List.mapM_cons]
    unfold System.constraintExpressions
    rw [h6]
    rfl
  have hpert : perturbFree (F := ℝ) .default {0, 1, 2, 3} ⟨[0, 0, 0, 0, 1], [0 * (1 / originScale), 0 * (1 / originScale), 0 * (1 / originScale), 0 * (1 / originScale), 1 * (1 / originScale)], 42, []⟩ =
      .ok ⟨[0, 0, 0, 0, 1], originPairSub.systemVariables, rngNext^[8] 42, []⟩ := by
    unfold perturbFree
    rw [hasc]
    rfl
  refine ⟨_, ?_, rfl⟩
  unfold System.solve System.solveLoop
  rw [h1, hsc]
  have hv : c.sys.scaledVariables = [0 * (1 / originScale), 0 * (1 / originScale), 0 * (1 / originScale), 0 * (1 / originScale), 1 * (1 / originScale)] := by
    unfold System.scaledVariables
    rw [hsc, h3]
    rfl
  have he : c.sys.scaledExpressions = originPairSub.allExpressions := by
    unfold System.scaledExpressions
    rw [hsc, h5]
    rfl
  rw [hv, he, h3]
  simp only [List.zipIdx_cons, List.zipIdx_nil, List.foldlM_cons, List.foldlM_nil]
  have hcomp : solveComponent opt ord .default c.sys originScale originPairSub.allExpressions
      ⟨[0, 0, 0, 0, 1], [0 * (1 / originScale), 0 * (1 / originScale), 0 * (1 / originScale), 0 * (1 / originScale), 1 * (1 / originScale)], 42, []⟩ (⟨{1, 0}, {0}⟩, 0) =
      .ok ⟨[originScale * originNoise originScale 0, originScale * originNoise originScale 1,
      originScale * originNoise originScale 2, originScale * originNoise originScale 3, 1], originPairSub.systemVariables, rngNext^[8] 42, [[0, 1]]⟩ := by
    unfold solveComponent
    rw [if_neg (by simp), hfree, ok_bind, hpert, ok_bind]
    show solveWhole _ _ _ _ _ _ _ _ = _
    unfold solveWhole
    rw [hasc]
    have hval : [0, 1, 2, 3].mapM (idx originPairSub.systemVariables) = .ok [originNoise originScale 0, originNoise originScale 1, originNoise originScale 2, originNoise originScale 3] := rfl
    rw [hval, ok_bind, hcons, ok_bind]
    refine (congrArg (· >>= _) hopt).trans ?_
    rfl
  rw [hcomp]
  rfl

theorem originPair_ok : originPairSub.Ok := by
  intro id hid
  simp only [originPairSub, List.mem_cons, List.not_mem_nil, or_false] at hid
  rcases hid with rfl | rfl
  · exact ⟨_, rfl, by simp [Expr.variableIndices, originPairSub]⟩
  · exact ⟨_, rfl, by simp [Expr.variableIndices, originPairSub]⟩

theorem originPair_small {r : List ℝ} (h : originPairSub.problem.residuals [originNoise originScale 0, originNoise originScale 1, originNoise originScale 2, originNoise originScale 3] = .ok r) :
    (r.map (fun y => y * y)).sum < 1 / 10 ^ 8 := by
  have h1 : originPairSub.problem.residuals [originNoise originScale 0, originNoise originScale 1, originNoise originScale 2, originNoise originScale 3] =
      .ok [(vveResGrad (originNoise originScale 0) (originNoise originScale 2)).1, (vveResGrad (originNoise originScale 1) (originNoise originScale 3)).1] := rfl
  rw [h1] at h
  cases h
  have a0 := noise_bound originScale 0
  have a1 := noise_bound originScale 1
  have a2 := noise_bound originScale 2
  have a3 := noise_bound originScale 3
  simp only [vveResGrad, List.map_cons, List.map_nil, List.sum_cons, List.sum_nil]
  norm_num at a0 a1 a2 a3 ⊢
  nlinarith

/-- C61 does not hold with perturbation, which is the default: two points in the origin that shall coincide (all residuals are zero) are moved apart, and the residual is not zero
afterwards. The optimiser stops at the perturbed values because the sum of the squared residuals is below its threshold. -/
theorem C61_default_moves : ∃ c, Reaches 0 originPairOps c ∧ ((Store.empty ℝ).run originPairOps).NonZero ∧
    c.sys.getValue .point ⟨0, 0⟩ = .ok (.point 0 0) ∧ c.sys.calculateResidual .pointPointCoincidence ⟨0, 0⟩ = .ok 0 ∧
    ∀ (ls : LeastSquares ℝ) (_ : ls.Safe (fun _ _ _ => True)) (fuel : Nat) (ord : HashOrder),
      ∃ s', c.sys.solve (crateOptimize ls fuel) ord .default = .ok s' ∧ s'.getValue .point ⟨0, 0⟩ ≠ .ok (.point 0 0) ∧
        ∃ r, s'.calculateResidual .pointPointCoincidence ⟨0, 0⟩ = .ok r ∧ r ≠ 0 := by
  obtain ⟨c, h⟩ := exists_reaches 0 originPairOps (by
    simp [originPairOps, Store.LegalRun, Store.Legal, Store.empty, Store.step, Store.IsPoint, Store.ConOk]) (by simp [originPairOps])
  have key : (do let c ← (Client.new ℝ 0).run originPairOps
                 let v ← c.sys.getValue .point ⟨0, 0⟩
                 let r ← c.sys.calculateResidual .pointPointCoincidence ⟨0, 0⟩
                 pure (v, r) : R _) = .ok (.point 0 0, FloatOps.sqrt (sumSquares [(vveResGrad 0 0).1, (vveResGrad 0 0).1])) := rfl
  rw [h.run, ok_bind] at key
  simp only [bind_eq_ok, pure_eq_ok, Except.ok.injEq, Prod.mk.injEq] at key
  obtain ⟨v, k1, r, k2, rfl, rfl⟩ := key
  refine ⟨c, h, ⟨.length 1, by simp [originPairOps, Store.run, Store.empty, Store.step], .inr ⟨1, rfl, one_ne_zero⟩⟩, k1, ?_, ?_⟩
  · rw [k2]
    simp [vveResGrad, sumSquares, FloatOps.sqrt]
  intro ls hls fuel ord
  have hlm := lm_rests_ok originPair_ok.total hls trivial (fuel := fuel) (x := [originNoise originScale 0, originNoise originScale 1, originNoise originScale 2, originNoise originScale 3])
    rfl (Subsystem.problem_consistent _) (fun r hr => originPair_small hr)
  obtain ⟨s', h1, rfl⟩ := originPair_loop h (crateOptimize ls fuel) ord hlm
  have hpos : 0 < originScale := by
    have : originScale = √((0 + 0 * 0 + 0 * 0 + 0 * 0 + 0 * 0 + 1 * 1) / ((5 : ℕ) : ℝ)) := rfl
    rw [this]
    positivity
  obtain ⟨g1, g2, g3, g4, g5, g6⟩ := originPair_sys h
  have hid : c.sys.id = 0 := by
    have : (do let c ← (Client.new ℝ 0).run originPairOps
               pure c.sys.id : R _) = .ok 0 := rfl
    rw [h.run, ok_bind] at this
    simpa [pure_eq_ok] using this
  set a := originNoise originScale 0 with ha
  set b := originNoise originScale 1
  set a' := originNoise originScale 2 with ha'
  set b' := originNoise originScale 3
  refine ⟨_, h1, ?_, FloatOps.sqrt (sumSquares [(vveResGrad (originScale * a) (originScale * a')).1, (vveResGrad (originScale * b) (originScale * b')).1]), ?_, ?_⟩
  · unfold System.getValue
    simp only [hid, g2]
    rw [if_neg (by simp)]
    intro hc
    have h2 : (Except.ok (ElementValue.point (originScale * a) (originScale * b)) : R _) = .ok (.point 0 0) := hc
    simp only [Except.ok.injEq, ElementValue.point.injEq, mul_eq_zero, hpos.ne', false_or] at h2
    exact noise_zero _ h2.1
  · unfold System.calculateResidual System.residualOf
    simp only [hid, g5, g6]
    rw [if_neg (by simp)]
    rfl
  · have h2 : (vveResGrad (originScale * a) (originScale * a')).1 ≠ 0 := by
      intro hc
      have : originScale * a' - originScale * a = 0 ∨ originScale * a - originScale * a' = 0 := by
        left; exact hc
      have h3 : a = a' := by
        have : originScale * (a - a') = 0 := by rcases this with h | h <;> linarith
        rcases mul_eq_zero.1 this with h | h
        · exact absurd h hpos.ne'
        · linarith
      exact noise_apart _ h3
    have h3 := sumSquares_pos (vs := [(vveResGrad (originScale * a) (originScale * a')).1, (vveResGrad (originScale * b) (originScale * b')).1]) List.mem_cons_self h2
    exact (Real.sqrt_pos.2 h3).ne'
end Fiksi
