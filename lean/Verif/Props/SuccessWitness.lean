import Verif.Props.Success
import Verif.Props.RestDefault
/-!
# C62: a case, and where it fails
-/
namespace Fiksi
open Spec

theorem still {d : Decomposer} {o : Optimizer} {free : Finset Nat} {st : SolveState ℝ} : perturbFree ⟨o, d, false⟩ free st = .ok st := rfl

/-! ## A case -/

/-- The points `(1,1)` and `(-1,1)` shall coincide. -/
noncomputable def meetOps : List (Op ℝ) := [.createPoint 1 1, .createPoint (-1) 1, .createCon (.pointPointCoincidence 0 1)]

/-- What is handed to the optimiser. -/
noncomputable def meetSub : Subsystem ℝ :=
  let k := 1 / rootMeanSquares [1, 1, -1, 1]
  ⟨[1 * k, 1 * k, -1 * k, 1 * k], [.variableVariableEquality 0 2, .variableVariableEquality 1 3], [0, 1], [0, 1, 2, 3]⟩

set_option maxRecDepth 10000 in
theorem meet_sys {c : Client ℝ} (h : Reaches 0 meetOps c) : c.sys.graph.components = [⟨{1, 0}, {0}⟩] ∧ c.sys.elements = [.point 0, .point 2] ∧
    c.sys.vars = [1, 1, -1, 1] ∧ c.sys.fixedVariables = ∅ ∧ c.sys.expressions = [.variableVariableEquality 0 2, .variableVariableEquality 1 3] ∧
    c.sys.constraints = [⟨.pointPointCoincidence, 0⟩] := by
  have key : (do let c ← (Client.new ℝ 0).run meetOps
                 pure (c.sys.graph.components, c.sys.elements, c.sys.vars, c.sys.fixedVariables, c.sys.expressions, c.sys.constraints) : R _) =
    .ok ([⟨{1, 0}, {0}⟩], [.point 0, .point 2], [1, 1, -1, 1], ∅, [.variableVariableEquality 0 2, .variableVariableEquality 1 3], [⟨.pointPointCoincidence, 0⟩]) := rfl
  rw [h.run, ok_bind] at key
  simpa [pure_eq_ok] using key

theorem meet_loop {c : Client ℝ} (h : Reaches 0 meetOps c) (opt : Optimize ℝ) (ord : HashOrder) {a b a' b' : ℝ} (hopt : opt .levenbergMarquardt meetSub.problem meetSub.systemVariables = .ok [a, b, a', b']) :
    ∃ s', c.sys.solve opt ord ⟨.levenbergMarquardt, .none, false⟩ = .ok s' := by
  obtain ⟨h1, h2, h3, h4, h5, h6⟩ := meet_sys h
  have hsc : c.sys.scale = rootMeanSquares [1, 1, -1, 1] := by
    unfold System.scale
    rw [h3, h5]
    rfl
  have hfree : c.sys.freeVariables {1, 0} = .ok {0, 1, 2, 3} := by
    unfold System.freeVariables
    rw [show ascending {1, 0} = [0, 1] by decide +kernel, h2, h4]
    have : (({0, 1, 2, 3} : Finset Nat)) = ∅ ∪ ((EncodedElement.point 0).variableIndices.toFinset \ ∅) ∪ ((EncodedElement.point 2).variableIndices.toFinset \ ∅) := by decide
    rw [this]
    rfl
  have hasc : ascending {0, 1, 2, 3} = [0, 1, 2, 3] := by decide +kernel
  have hcons : (ascending {0}).mapM c.sys.constraintExpressions = .ok [[0, 1]] := by
    rw [show ascending {0} = [0] by decide +kernel, List.mapM_cons]
    unfold System.constraintExpressions
    rw [h6]
    rfl
  have hv : c.sys.scaledVariables = meetSub.systemVariables := by
    unfold System.scaledVariables
    rw [hsc, h3]
    rfl
  have he : c.sys.scaledExpressions = meetSub.allExpressions := by
    unfold System.scaledExpressions
    rw [hsc, h5]
    rfl
  unfold System.solve System.solveLoop
  rw [h1, hv, he, h3]
  simp only [List.zipIdx_cons, List.zipIdx_nil, List.foldlM_cons, List.foldlM_nil]
  have hcomp : solveComponent opt ord ⟨.levenbergMarquardt, .none, false⟩ c.sys c.sys.scale meetSub.allExpressions ⟨[1, 1, -1, 1], meetSub.systemVariables, 42, []⟩ (⟨{1, 0}, {0}⟩, 0) =
      .ok ⟨[c.sys.scale * a, c.sys.scale * b, c.sys.scale * a', c.sys.scale * b'], meetSub.systemVariables, 42, [[0, 1]]⟩ := by
    unfold solveComponent
    rw [if_neg (by simp), hfree, ok_bind, still, ok_bind]
    show solveWhole _ _ _ _ _ _ _ _ = _
    unfold solveWhole
    rw [hasc]
    have hval : [0, 1, 2, 3].mapM (idx meetSub.systemVariables) = .ok meetSub.systemVariables := rfl
    rw [hval, ok_bind, hcons, ok_bind]
    refine (congrArg (· >>= _) hopt).trans ?_
    rfl
  rw [hcomp]
  exact ⟨_, rfl⟩

/-- A case for C62: an optimiser that moves both points to the middle. All its calls end at residuals of zero. -/
example : ∃ c s', Reaches 0 meetOps c ∧ ((Store.empty ℝ).run meetOps).NonZero ∧ NeverJoins ((Store.empty ℝ).run meetOps).arguments ∧
    c.sys.solve (Optimize.checked (fun _ _ _ => .ok [0, 1, 0, 1]) 0) ascendingOrder ⟨.levenbergMarquardt, .none, false⟩ = .ok s' := by
  obtain ⟨c, h⟩ := exists_reaches 0 meetOps (by simp [meetOps, Store.LegalRun, Store.Legal, Store.empty, Store.step, Store.IsPoint, Store.ConOk]) (by simp [meetOps])
  have hz : ∃ r, meetSub.problem.residuals [0, 1, 0, 1] = .ok r ∧ ∀ y ∈ r, |y| ≤ 0 := by
    refine ⟨[(vveResGrad 0 0).1, (vveResGrad 1 1).1], rfl, ?_⟩
    simp [vveResGrad]
  obtain ⟨s', hs⟩ := meet_loop h (Optimize.checked (fun _ _ _ => .ok [0, 1, 0, 1]) 0) ascendingOrder (a := 0) (b := 1) (a' := 0) (b' := 1) (by
    rw [Optimize.checked, ok_bind, if_pos hz]
    rfl)
  refine ⟨c, s', h, ⟨.point 1 1, by simp [meetOps, Store.run, Store.empty, Store.step], .inl ⟨1, 1, rfl, .inl (by norm_num)⟩⟩, ?_, hs⟩
  intro m l hm i hi j hj hci
  have hlen : m < (((Store.empty ℝ).run meetOps).arguments).length := lt_of_getElem? hm
  have : (((Store.empty ℝ).run meetOps).arguments).length = 1 := rfl
  have hm0 : m = 0 := by omega
  subst hm0
  obtain ⟨l', hl', -⟩ := hci
  simp at hl'

/-! ## Where it fails -/

/-- Six points with six distances. The figure satisfies all but the last. The fourth and the fifth constraint join constrained parts. -/
noncomputable def lostOps : List (Op ℝ) :=
  [.createPoint 1 2, .createPoint 1 0, .createPoint 0 0, .createPoint 1 0, .createPoint 1 1, .createPoint 0 1,
   .createCon (.pointPointDistance 0 1 2), .createCon (.pointPointDistance 2 3 1), .createCon (.pointPointDistance 4 5 1),
   .createCon (.pointPointDistance 1 2 1), .createCon (.pointPointDistance 1 4 1), .createCon (.pointPointDistance 3 5 0)]

/-- The scale of that system. -/
noncomputable def lostScale : ℝ := rootMeanSquares [1, 2, 1, 0, 0, 0, 1, 0, 1, 1, 0, 1, 2, 1, 1, 1, 1, 0]

theorem lostScale_eq : lostScale = 1 := by
  show Real.sqrt ((0 + 1 * 1 + 2 * 2 + 1 * 1 + 0 * 0 + 0 * 0 + 0 * 0 + 1 * 1 + 0 * 0 + 1 * 1 + 1 * 1 + 0 * 0 + 1 * 1 + 2 * 2 + 1 * 1 + 1 * 1 + 1 * 1 + 1 * 1 + 0 * 0) / ((18 : ℕ) : ℝ)) = 1
  norm_num

/-- What is handed to the optimiser. -/
noncomputable def lostSub : Subsystem ℝ :=
  let k := 1 / lostScale
  ⟨[1 * k, 2 * k, 1 * k, 0 * k, 0 * k, 0 * k, 1 * k, 0 * k, 1 * k, 1 * k, 0 * k, 1 * k],
    [.pointPointDistance 0 2 (k * 2), .pointPointDistance 4 6 (k * 1), .pointPointDistance 8 10 (k * 1), .pointPointDistance 2 4 (k * 1), .pointPointDistance 2 8 (k * 1),
      .pointPointDistance 6 10 (k * 0)], [0, 1, 2, 3, 4], [0, 1, 2, 3, 4, 5, 6, 7, 8, 9, 10, 11]⟩

set_option maxRecDepth 100000 in
theorem lost_sys {c : Client ℝ} (h : Reaches 0 lostOps c) : c.sys.id = 0 ∧ c.sys.elements = [.point 0, .point 2, .point 4, .point 6, .point 8, .point 10] ∧
    c.sys.vars = [1, 2, 1, 0, 0, 0, 1, 0, 1, 1, 0, 1] ∧ c.sys.fixedVariables = ∅ ∧
    c.sys.expressions = [.pointPointDistance 0 2 2, .pointPointDistance 4 6 1, .pointPointDistance 8 10 1, .pointPointDistance 2 4 1, .pointPointDistance 2 8 1, .pointPointDistance 6 10 0] ∧
    c.sys.constraints = [⟨.pointPointDistance, 0⟩, ⟨.pointPointDistance, 1⟩, ⟨.pointPointDistance, 2⟩, ⟨.pointPointDistance, 3⟩, ⟨.pointPointDistance, 4⟩, ⟨.pointPointDistance, 5⟩] := by
  have key : (do let c ← (Client.new ℝ 0).run lostOps
                 pure (c.sys.id, c.sys.elements, c.sys.vars, c.sys.fixedVariables, c.sys.expressions, c.sys.constraints) : R _) =
    .ok (0, [.point 0, .point 2, .point 4, .point 6, .point 8, .point 10], [1, 2, 1, 0, 0, 0, 1, 0, 1, 1, 0, 1], ∅,
      [.pointPointDistance 0 2 2, .pointPointDistance 4 6 1, .pointPointDistance 8 10 1, .pointPointDistance 2 4 1, .pointPointDistance 2 8 1, .pointPointDistance 6 10 0],
      [⟨.pointPointDistance, 0⟩, ⟨.pointPointDistance, 1⟩, ⟨.pointPointDistance, 2⟩, ⟨.pointPointDistance, 3⟩, ⟨.pointPointDistance, 4⟩, ⟨.pointPointDistance, 5⟩]) := rfl
  rw [h.run, ok_bind] at key
  simpa [pure_eq_ok] using key

theorem lost_components {c : Client ℝ} (h : Reaches 0 lostOps c) : c.sys.graph.components = [⟨{0, 1, 2, 3, 4, 5}, {0, 1, 2, 3, 4}⟩, ⟨∅, ∅⟩, ⟨∅, ∅⟩, ⟨∅, {5}⟩] := by
  have h2 : okAnd ((Client.new ℝ 0).run lostOps) (fun c => c.sys.graph.components.map (fun k => (k.elements, k.constraints)) =
      [({0, 1, 2, 3, 4, 5}, {0, 1, 2, 3, 4}), (∅, ∅), (∅, ∅), (∅, {5})]) = true := by decide +kernel
  rw [h.run] at h2
  exact components_of_pairs (of_decide_eq_true h2)

theorem lost_residuals : lostSub.problem.residuals lostSub.systemVariables = .ok [0, 0, 0, 0, 0] := by
  have : lostSub.problem.residuals lostSub.systemVariables = .ok [
      (ppdResGrad (1 * (1 / lostScale)) (2 * (1 / lostScale)) (1 * (1 / lostScale)) (0 * (1 / lostScale)) (1 / lostScale * 2)).1,
      (ppdResGrad (0 * (1 / lostScale)) (0 * (1 / lostScale)) (1 * (1 / lostScale)) (0 * (1 / lostScale)) (1 / lostScale * 1)).1,
      (ppdResGrad (1 * (1 / lostScale)) (1 * (1 / lostScale)) (0 * (1 / lostScale)) (1 * (1 / lostScale)) (1 / lostScale * 1)).1,
      (ppdResGrad (1 * (1 / lostScale)) (0 * (1 / lostScale)) (0 * (1 / lostScale)) (0 * (1 / lostScale)) (1 / lostScale * 1)).1,
      (ppdResGrad (1 * (1 / lostScale)) (0 * (1 / lostScale)) (1 * (1 / lostScale)) (1 * (1 / lostScale)) (1 / lostScale * 1)).1] := rfl
  rw [this, lostScale_eq]
  have h1 : ∀ a b c d e : ℝ, (ppdResGrad a b c d e).1 = √((a - c) * (a - c) + (b - d) * (b - d)) - e := fun a b c d e => rfl
  simp only [h1]
  have h2 : √(4 : ℝ) = 2 := by rw [show (4 : ℝ) = 2 * 2 by norm_num, Real.sqrt_mul_self (by norm_num)]
  norm_num [h2]

theorem lost_loop {c : Client ℝ} (h : Reaches 0 lostOps c) (opt : Optimize ℝ) (ord : HashOrder) (hopt : opt .levenbergMarquardt lostSub.problem lostSub.systemVariables = .ok lostSub.systemVariables) :
    c.sys.solve opt ord ⟨.levenbergMarquardt, .none, false⟩ = .ok c.sys := by
  obtain ⟨-, h2, h3, h4, h5, h6⟩ := lost_sys h
  have h1 := lost_components h
  have hsc : c.sys.scale = lostScale := by
    unfold System.scale
    rw [h3, h5]
    rfl
  have hfree : c.sys.freeVariables {0, 1, 2, 3, 4, 5} = .ok (Finset.range 12) := by
    unfold System.freeVariables
    rw [show ascending {0, 1, 2, 3, 4, 5} = [0, 1, 2, 3, 4, 5] by decide +kernel, h2, h4]
    have : Finset.range 12 = ∅ ∪ ((EncodedElement.point 0).variableIndices.toFinset \ ∅) ∪ ((EncodedElement.point 2).variableIndices.toFinset \ ∅) ∪
      ((EncodedElement.point 4).variableIndices.toFinset \ ∅) ∪ ((EncodedElement.point 6).variableIndices.toFinset \ ∅) ∪
      ((EncodedElement.point 8).variableIndices.toFinset \ ∅) ∪ ((EncodedElement.point 10).variableIndices.toFinset \ ∅) := by decide
    rw [this]
    rfl
  have hasc : ascending (Finset.range 12) = [0, 1, 2, 3, 4, 5, 6, 7, 8, 9, 10, 11] := by decide +kernel
  have hcons : (ascending {0, 1, 2, 3, 4}).mapM c.sys.constraintExpressions = .ok [[0], [1], [2], [3], [4]] := by
    rw [show ascending {0, 1, 2, 3, 4} = [0, 1, 2, 3, 4] by decide +kernel]
    unfold System.constraintExpressions
    rw [h6]
    rfl
  have hv : c.sys.scaledVariables = lostSub.systemVariables := by
    unfold System.scaledVariables
    rw [hsc, h3]
    rfl
  have he : c.sys.scaledExpressions = lostSub.allExpressions := by
    unfold System.scaledExpressions
    rw [hsc, h5]
    rfl
  have hcomp : solveComponent opt ord ⟨.levenbergMarquardt, .none, false⟩ c.sys c.sys.scale lostSub.allExpressions ⟨c.sys.vars, lostSub.systemVariables, 42, []⟩
      (⟨{0, 1, 2, 3, 4, 5}, {0, 1, 2, 3, 4}⟩, 0) = .ok ⟨c.sys.vars, lostSub.systemVariables, 42, [[0, 1, 2, 3, 4]]⟩ := by
    unfold solveComponent
    rw [if_neg (by simp), hfree, ok_bind, still, ok_bind]
    show solveWhole _ _ _ _ _ _ _ _ = _
    unfold solveWhole
    rw [hasc]
    have hval : [0, 1, 2, 3, 4, 5, 6, 7, 8, 9, 10, 11].mapM (idx lostSub.systemVariables) = .ok lostSub.systemVariables := rfl
    rw [hval, ok_bind, hcons, ok_bind]
    refine (congrArg (· >>= _) hopt).trans ?_
    have hw : [0, 1, 2, 3, 4, 5, 6, 7, 8, 9, 10, 11].zipIdx.foldlM (writeVars c.sys.scale lostSub.systemVariables) c.sys.vars = .ok c.sys.vars := by
      rw [hsc, h3]
      have : [0, 1, 2, 3, 4, 5, 6, 7, 8, 9, 10, 11].zipIdx.foldlM (writeVars lostScale lostSub.systemVariables) [1, 2, 1, 0, 0, 0, 1, 0, 1, 1, 0, 1] =
        .ok (lostSub.systemVariables.map (lostScale * ·)) := rfl
      rw [this]
      simp [lostSub, lostScale_eq]
    rw [ok_bind]
    simp only [hw, ok_bind]
    rfl
  unfold System.solve System.solveLoop
  rw [h1, hv, he]
  simp only [List.zipIdx_cons, List.zipIdx_nil, List.foldlM_cons, List.foldlM_nil]
  rw [hcomp]
  rfl

theorem lost_ok : lostSub.Ok := by
  intro id hid
  simp only [lostSub, List.mem_cons, List.not_mem_nil, or_false] at hid
  rcases hid with rfl | rfl | rfl | rfl | rfl <;> exact ⟨_, rfl, by simp [Expr.variableIndices, lostSub]⟩

/-- C62 is false in general: in this history (see C17 and C22) every call of Levenberg–Marquardt ends at residuals of zero, `solve` succeeds, and the last constraint is violated: the
points that shall coincide stay apart by `√2`. -/
theorem C62_unsatisfied_after_success : ∃ c, Reaches 0 lostOps c ∧ ((Store.empty ℝ).run lostOps).NonZero ∧ c.conHandles[5]? = some ⟨0, 5⟩ ∧
    ∀ (ls : LeastSquares ℝ) (_ : ls.Safe (fun _ _ _ => True)) (fuel : Nat) (ord : HashOrder),
      ∃ s', c.sys.solve ((crateOptimize ls fuel).checked 0) ord ⟨.levenbergMarquardt, .none, false⟩ = .ok s' ∧
        c.sys.solve (crateOptimize ls fuel) ord ⟨.levenbergMarquardt, .none, false⟩ = .ok s' ∧ s'.calculateResidual .pointPointDistance ⟨0, 5⟩ = .ok (√2) := by
  obtain ⟨c, h⟩ := exists_reaches 0 lostOps (by
    simp [lostOps, Store.LegalRun, Store.Legal, Store.empty, Store.step, Store.IsPoint, Store.ConOk]) (by simp [lostOps])
  obtain ⟨h0, h2, h3, h4, h5, h6⟩ := lost_sys h
  have hh := h.crel.conHandle (i := 5) (by show 5 < 6; norm_num)
  rw [h0] at hh
  refine ⟨c, h, ⟨.point 1 2, by simp [lostOps, Store.run, Store.empty, Store.step], .inl ⟨1, 2, rfl, .inl (by norm_num)⟩⟩, hh, fun ls hls fuel ord => ?_⟩
  have hlm : crateOptimize ls fuel .levenbergMarquardt lostSub.problem lostSub.systemVariables = .ok lostSub.systemVariables :=
    lm_rests_ok lost_ok.total hls trivial rfl (Subsystem.problem_consistent _) (fun r hr => by
      rw [lost_residuals] at hr
      cases hr
      norm_num)
  have hch : (crateOptimize ls fuel).checked 0 .levenbergMarquardt lostSub.problem lostSub.systemVariables = .ok lostSub.systemVariables := by
    rw [Optimize.checked, hlm, ok_bind, if_pos ⟨_, lost_residuals, by simp⟩]
    rfl
  refine ⟨c.sys, lost_loop h _ ord hch, lost_loop h _ ord hlm, ?_⟩
  unfold System.calculateResidual System.residualOf
  simp only [h0, h3, h5, h6]
  rw [if_neg (by simp)]
  have : (Except.ok (ppdResGrad 1 0 0 1 0).1 : R ℝ) = .ok (√2) := by
    have h1 : (ppdResGrad 1 0 0 1 0).1 = √((1 - 0) * (1 - 0) + (0 - 1) * (0 - 1)) - (0 : ℝ) := rfl
    rw [h1]
    norm_num
  rw [← this]
  rfl

end Fiksi
