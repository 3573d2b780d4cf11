import Verif.Props.RestDefault
import Verif.Props.Straight
/-!
# C92 does not hold with perturbation
-/
namespace Fiksi
open Spec

/-- Two points in the origin that shall be at the distance 0, and a length of 1. -/
noncomputable def nilDistanceOps : List (Op ℝ) := [.createPoint 0 0, .createPoint 0 0, .createLength 1, .createCon (.pointPointDistance 0 1 0)]

/-- The scale of that system. -/
noncomputable def nilScale : ℝ := rootMeanSquares [0, 0, 0, 0, 1, 0]

/-- What is handed to the optimiser. -/
noncomputable def nilDistanceSub : Subsystem ℝ :=
  ⟨[originNoise nilScale 0, originNoise nilScale 1, originNoise nilScale 2, originNoise nilScale 3, 1 * (1 / nilScale)], [.pointPointDistance 0 2 (1 / nilScale * 0)], [0], [0, 1, 2, 3]⟩

set_option maxRecDepth 10000 in
theorem nilDistance_sys {c : Client ℝ} (h : Reaches 0 nilDistanceOps c) : c.sys.graph.components = [⟨{1, 0}, {0}⟩] ∧ c.sys.elements = [.point 0, .point 2, .length 4] ∧
    c.sys.vars = [0, 0, 0, 0, 1] ∧ c.sys.fixedVariables = ∅ ∧ c.sys.expressions = [.pointPointDistance 0 2 0] ∧ c.sys.constraints = [⟨.pointPointDistance, 0⟩] := by
  have key : (do let c ← (Client.new ℝ 0).run nilDistanceOps
                 pure (c.sys.graph.components, c.sys.elements, c.sys.vars, c.sys.fixedVariables, c.sys.expressions, c.sys.constraints) : R _) =
    .ok ([⟨{1, 0}, {0}⟩], [.point 0, .point 2, .length 4], [0, 0, 0, 0, 1], ∅, [.pointPointDistance 0 2 0], [⟨.pointPointDistance, 0⟩]) := rfl
  rw [h.run, ok_bind] at key
  simpa [pure_eq_ok] using key

theorem nilDistance_loop {c : Client ℝ} (h : Reaches 0 nilDistanceOps c) (opt : Optimize ℝ) (ord : HashOrder) (hopt : opt .levenbergMarquardt nilDistanceSub.problem
      [originNoise nilScale 0, originNoise nilScale 1, originNoise nilScale 2, originNoise nilScale 3] =
    .ok [originNoise nilScale 0, originNoise nilScale 1, originNoise nilScale 2, originNoise nilScale 3]) :
    ∃ s', c.sys.solve opt ord .default = .ok s' ∧ s' = { c.sys with vars := [nilScale * originNoise nilScale 0, nilScale * originNoise nilScale 1,
      nilScale * originNoise nilScale 2, nilScale * originNoise nilScale 3, 1] } := by
  obtain ⟨h1, h2, h3, h4, h5, h6⟩ := nilDistance_sys h
  have hsc : c.sys.scale = nilScale := by
    unfold System.scale nilScale
    rw [h3, h5]
    rfl
  have hfree : c.sys.freeVariables {1, 0} = .ok {0, 1, 2, 3} := by
    unfold System.freeVariables
    rw [show ascending {1, 0} = [0, 1] by decide +kernel, h2, h4]
    have : (({0, 1, 2, 3} : Finset Nat)) = ∅ ∪ ((EncodedElement.point 0).variableIndices.toFinset \ ∅) ∪ ((EncodedElement.point 2).variableIndices.toFinset \ ∅) := by decide
    rw [this]
    rfl
  have hasc : ascending {0, 1, 2, 3} = [0, 1, 2, 3] := by decide +kernel
  have hcons : (ascending {0}).mapM c.sys.constraintExpressions = .ok [[0]] := by
    rw [show ascending {0} = [0] by decide +kernel, List.mapM_cons]
    unfold System.constraintExpressions
    rw [h6]
    rfl
  have hpert : perturbFree (F := ℝ) .default {0, 1, 2, 3} ⟨[0, 0, 0, 0, 1], [0 * (1 / nilScale), 0 * (1 / nilScale), 0 * (1 / nilScale), 0 * (1 / nilScale), 1 * (1 / nilScale)], 42, []⟩ =
      .ok ⟨[0, 0, 0, 0, 1], nilDistanceSub.systemVariables, rngNext^[8] 42, []⟩ := by
    unfold perturbFree
    rw [hasc]
    rfl
  refine ⟨_, ?_, rfl⟩
  unfold System.solve System.solveLoop
  rw [h1, hsc]
  have hv : c.sys.scaledVariables = [0 * (1 / nilScale), 0 * (1 / nilScale), 0 * (1 / nilScale), 0 * (1 / nilScale), 1 * (1 / nilScale)] := by
    unfold System.scaledVariables
    rw [hsc, h3]
    rfl
  have he : c.sys.scaledExpressions = nilDistanceSub.allExpressions := by
    unfold System.scaledExpressions
    rw [hsc, h5]
    rfl
  rw [hv, he, h3]
  simp only [List.zipIdx_cons, List.zipIdx_nil, List.foldlM_cons, List.foldlM_nil]
  have hcomp : solveComponent opt ord .default c.sys nilScale nilDistanceSub.allExpressions
      ⟨[0, 0, 0, 0, 1], [0 * (1 / nilScale), 0 * (1 / nilScale), 0 * (1 / nilScale), 0 * (1 / nilScale), 1 * (1 / nilScale)], 42, []⟩ (⟨{1, 0}, {0}⟩, 0) =
      .ok ⟨[nilScale * originNoise nilScale 0, nilScale * originNoise nilScale 1,
      nilScale * originNoise nilScale 2, nilScale * originNoise nilScale 3, 1], nilDistanceSub.systemVariables, rngNext^[8] 42, [[0]]⟩ := by
    unfold solveComponent
    rw [if_neg (by simp), hfree, ok_bind, hpert, ok_bind]
    show solveWhole _ _ _ _ _ _ _ _ = _
    unfold solveWhole
    rw [hasc]
    have hval : [0, 1, 2, 3].mapM (idx nilDistanceSub.systemVariables) = .ok [originNoise nilScale 0, originNoise nilScale 1, originNoise nilScale 2, originNoise nilScale 3] := rfl
    rw [hval, ok_bind, hcons, ok_bind]
    refine (congrArg (· >>= _) hopt).trans ?_
    rfl
  rw [hcomp]
  rfl

theorem nilDistance_ok : nilDistanceSub.Ok := by
  intro id hid
  simp only [nilDistanceSub, List.mem_cons, List.not_mem_nil, or_false] at hid
  subst hid
  exact ⟨_, rfl, by simp [Expr.variableIndices, nilDistanceSub]⟩

theorem nilDistance_small {r : List ℝ} (h : nilDistanceSub.problem.residuals [originNoise nilScale 0, originNoise nilScale 1, originNoise nilScale 2, originNoise nilScale 3] = .ok r) :
    (r.map (fun y => y * y)).sum < 1 / 10 ^ 8 := by
  have h1 : nilDistanceSub.problem.residuals [originNoise nilScale 0, originNoise nilScale 1, originNoise nilScale 2, originNoise nilScale 3] =
      .ok [(ppdResGrad (originNoise nilScale 0) (originNoise nilScale 1) (originNoise nilScale 2) (originNoise nilScale 3) (1 / nilScale * 0)).1] := rfl
  rw [h1] at h
  cases h
  have a0 := noise_bound nilScale 0
  have a1 := noise_bound nilScale 1
  have a2 := noise_bound nilScale 2
  have a3 := noise_bound nilScale 3
  generalize originNoise nilScale 0 = u at *
  generalize originNoise nilScale 1 = v at *
  generalize originNoise nilScale 2 = u' at *
  generalize originNoise nilScale 3 = v' at *
  have h2 : (ppdResGrad u v u' v' (1 / nilScale * 0)).1 = √((u - u') * (u - u') + (v - v') * (v - v')) := by
    show √((u - u') * (u - u') + (v - v') * (v - v')) - 1 / nilScale * 0 = _
    ring
  simp only [List.map_cons, List.map_nil, List.sum_cons, List.sum_nil, h2]
  rw [Real.mul_self_sqrt (by nlinarith [mul_self_nonneg (u - u'), mul_self_nonneg (v - v')])]
  norm_num at a0 a1 a2 a3 ⊢
  nlinarith

/-- C92 does not hold with perturbation, which is the default: two points in the origin that shall be at the distance 0 are on the line x = 0; afterwards the first is not. -/
theorem C92_default_leaves_line : ∃ c, Reaches 0 nilDistanceOps c ∧ ((Store.empty ℝ).run nilDistanceOps).NonZero ∧ NeverJoins ((Store.empty ℝ).run nilDistanceOps).arguments ∧
    ((Store.empty ℝ).run nilDistanceOps).OnlySegments {0, 1} ∧ c.sys.getValue .point ⟨0, 0⟩ = .ok (.point 0 0) ∧ c.sys.getValue .point ⟨0, 1⟩ = .ok (.point 0 0) ∧
    ∀ (ls : LeastSquares ℝ) (_ : ls.Safe (fun _ _ _ => True)) (fuel : Nat) (ord : HashOrder), ∃ s' x y, c.sys.solve (crateOptimize ls fuel) ord .default = .ok s' ∧
      s'.getValue .point ⟨0, 0⟩ = .ok (.point x y) ∧ x ≠ 0 := by
  obtain ⟨c, h⟩ := exists_reaches 0 nilDistanceOps (by
    simp [nilDistanceOps, Store.LegalRun, Store.Legal, Store.empty, Store.step, Store.IsPoint, Store.ConOk]) (by simp [nilDistanceOps])
  have key : (do let c ← (Client.new ℝ 0).run nilDistanceOps
                 let v ← c.sys.getValue .point ⟨0, 0⟩
                 let v' ← c.sys.getValue .point ⟨0, 1⟩
                 pure (v, v', c.sys.id) : R _) = .ok (.point 0 0, .point 0 0, 0) := rfl
  rw [h.run, ok_bind] at key
  simp only [bind_eq_ok, pure_eq_ok, Except.ok.injEq, Prod.mk.injEq] at key
  obtain ⟨v, k1, v', k2, rfl, rfl, hid⟩ := key
  refine ⟨c, h, ⟨.length 1, by simp [nilDistanceOps, Store.run, Store.empty, Store.step], .inr ⟨1, rfl, one_ne_zero⟩⟩, ?_, ⟨?_, ?_⟩, k1, k2, ?_⟩
  · intro m l hm i _ j _ hci _
    have hlen := lt_of_getElem? hm
    obtain ⟨k, hk, -⟩ := hci
    rw [show m = 0 by simpa [Store.arguments, nilDistanceOps, Store.run, Store.empty, Store.step] using hlen] at hk
    simp at hk
  · intro p hp
    simp only [Finset.mem_insert, Finset.mem_singleton] at hp
    rcases hp with rfl | rfl
    · exact ⟨0, 0, rfl⟩
    · exact ⟨0, 0, rfl⟩
  · intro con hcon
    simp only [nilDistanceOps, Store.run, Store.empty, Store.step, List.foldl_cons, List.foldl_nil, List.nil_append, List.mem_singleton] at hcon
    subst hcon
    exact .inr ⟨by simp [Store.actsOn], .inl ⟨_, _, _, rfl⟩⟩
  intro ls hls fuel ord
  have hlm := lm_rests_ok nilDistance_ok.total hls trivial (fuel := fuel) (x := [originNoise nilScale 0, originNoise nilScale 1, originNoise nilScale 2, originNoise nilScale 3])
    rfl (Subsystem.problem_consistent _) (fun r hr => nilDistance_small hr)
  obtain ⟨s', h1, rfl⟩ := nilDistance_loop h (crateOptimize ls fuel) ord hlm
  have hpos : 0 < nilScale := by
    have : nilScale = √((0 + 0 * 0 + 0 * 0 + 0 * 0 + 0 * 0 + 1 * 1 + 0 * 0) / ((6 : ℕ) : ℝ)) := rfl
    rw [this]
    positivity
  obtain ⟨g1, g2, -⟩ := nilDistance_sys h
  refine ⟨_, nilScale * originNoise nilScale 0, nilScale * originNoise nilScale 1, h1, ?_, mul_ne_zero hpos.ne' (noise_zero _)⟩
  unfold System.getValue
  simp only [hid, g2]
  rw [if_neg (by simp)]
  rfl

end Fiksi
