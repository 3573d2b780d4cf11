import Verif.Props.LmMachine
import Verif.Props.SuccessWitness
/-!
# C66, a case: without perturbation a figure stays where the errors balance
-/
namespace Fiksi
open Spec

/-- Two fixed points and a third one between them that shall be further away from both. -/
noncomputable def stuckOps : List (Op ℝ) :=
  [.createPoint (-6 / 5) 0, .createPoint (6 / 5) 0, .createPoint 0 0, .fix .point 0, .fix .point 1, .createCon (.pointPointDistance 0 2 (8 / 5)), .createCon (.pointPointDistance 1 2 (8 / 5))]

theorem stuck_sys {c : Client ℝ} (h : Reaches 0 stuckOps c) : c.sys.elements = [.point 0, .point 2, .point 4] ∧ c.sys.vars = [-6 / 5, 0, 6 / 5, 0, 0, 0] ∧
    c.sys.fixedVariables = {0, 1, 2, 3} ∧ c.sys.expressions = [.pointPointDistance 0 4 (8 / 5), .pointPointDistance 2 4 (8 / 5)] ∧
    c.sys.constraints = [⟨.pointPointDistance, 0⟩, ⟨.pointPointDistance, 1⟩] ∧ c.sys.id = 0 := by
  have key : (do let c ← (Client.new ℝ 0).run stuckOps
                 pure (c.sys.elements, c.sys.vars, c.sys.fixedVariables, c.sys.expressions, c.sys.constraints, c.sys.id) : R _) =
    .ok ([.point 0, .point 2, .point 4], [-6 / 5, 0, 6 / 5, 0, 0, 0], ∅ ∪ {0, 1} ∪ {2, 3}, [.pointPointDistance 0 4 (8 / 5), .pointPointDistance 2 4 (8 / 5)],
      [⟨.pointPointDistance, 0⟩, ⟨.pointPointDistance, 1⟩], 0) := rfl
  rw [h.run, ok_bind, show (∅ ∪ {0, 1} ∪ {2, 3} : Finset Nat) = {0, 1, 2, 3} by decide] at key
  simpa [pure_eq_ok] using key

theorem stuck_components {c : Client ℝ} (h : Reaches 0 stuckOps c) : c.sys.graph.components = [⟨{0, 1, 2}, {0, 1}⟩] := by
  have h2 : okAnd ((Client.new ℝ 0).run stuckOps) (fun c => c.sys.graph.components.map (fun k => (k.elements, k.constraints)) = [({0, 1, 2}, {0, 1})]) = true := by decide +kernel
  rw [h.run] at h2
  exact components_of_pairs (of_decide_eq_true h2)

/-- The problem of the only component. -/
noncomputable def stuckSub : Subsystem ℝ := ⟨[-6 / 5, 0, 6 / 5, 0, 0, 0], [.pointPointDistance 0 4 (8 / 5), .pointPointDistance 2 4 (8 / 5)], [0, 1], [4, 5]⟩

theorem stuck_ok : stuckSub.Ok := by
  intro id hid
  simp only [stuckSub, List.mem_cons, List.not_mem_nil, or_false] at hid
  rcases hid with rfl | rfl
  · exact ⟨_, rfl, by simp [Expr.variableIndices, stuckSub]⟩
  · exact ⟨_, rfl, by simp [Expr.variableIndices, stuckSub]⟩

theorem stuck_left : ppdResGrad (-6 / 5 : ℝ) 0 0 0 (8 / 5) = (-2 / 5, [-1, 0, 1, 0]) := by
  have : √((-6 / 5 - 0) * (-6 / 5 - 0) + (0 - 0) * (0 - 0) : ℝ) = 6 / 5 := by
    rw [show ((-6 / 5 - 0) * (-6 / 5 - 0) + (0 - 0) * (0 - 0) : ℝ) = (6 / 5) ^ 2 by norm_num]
    exact Real.sqrt_sq (by norm_num)
  simp only [ppdResGrad, FloatOps.sqrt, square, this]
  norm_num

theorem stuck_right : ppdResGrad (6 / 5 : ℝ) 0 0 0 (8 / 5) = (-2 / 5, [1, 0, -1, 0]) := by
  have : √((6 / 5 - 0) * (6 / 5 - 0) + (0 - 0) * (0 - 0) : ℝ) = 6 / 5 := by
    rw [show ((6 / 5 - 0) * (6 / 5 - 0) + (0 - 0) * (0 - 0) : ℝ) = (6 / 5) ^ 2 by norm_num]
    exact Real.sqrt_sq (by norm_num)
  simp only [ppdResGrad, FloatOps.sqrt, square, this]
  norm_num

theorem stuck_lm {ls : LeastSquares ℝ} (hls : ls.Exact (fun _ _ _ => True)) {fuel : Nat} {x : List ℝ} (h : levenbergMarquardt stuckSub.problem ls fuel [0, 0] = .ok x) : x = [0, 0] := by
  obtain ⟨P, h1, h2, -⟩ := stuck_ok.fitting
  have hm : P.m = 2 := h1.rows.symm
  have hn : P.n = 2 := h1.columns.symm
  refine C66_stationary_stays (by norm_num) ?_ (C66_lm_is_method h1 hls trivial (by simp [hn]) h)
  obtain ⟨ts, h3, -, -, h4⟩ := h1.sparse [0, 0] [0, 0] (by simp [hn]) (by simp [hm])
  have h5 : stuckSub.problem.sparseJacobian [0, 0] [0, 0] [] = .ok ([(ppdResGrad (-6 / 5 : ℝ) 0 0 0 (8 / 5)).1, (ppdResGrad (6 / 5 : ℝ) 0 0 0 (8 / 5)).1],
      [(0, 0, (ppdResGrad (-6 / 5 : ℝ) 0 0 0 (8 / 5)).2.getD 2 0), (0, 1, (ppdResGrad (-6 / 5 : ℝ) 0 0 0 (8 / 5)).2.getD 3 0),
       (1, 0, (ppdResGrad (6 / 5 : ℝ) 0 0 0 (8 / 5)).2.getD 2 0), (1, 1, (ppdResGrad (6 / 5 : ℝ) 0 0 0 (8 / 5)).2.getD 3 0)]) := rfl
  rw [h5, stuck_left, stuck_right] at h3
  simp only [Except.ok.injEq, Prod.mk.injEq] at h3
  obtain ⟨h6, rfl⟩ := h3
  intro c hc
  rw [hm, Finset.sum_range_succ, Finset.sum_range_succ, Finset.sum_range_zero, ← h4 0 (by omega) c hc, ← h4 1 (by omega) c hc, ← h6]
  rw [hn] at hc
  rcases (show c = 0 ∨ c = 1 by omega) with rfl | rfl <;> norm_num [entrySum]

/-- C66, what it means for `solve`: without perturbation a figure is not changed if the errors balance, even if there is a solution. The third point could be moved to a place where both
distances are right, both distances are too short before and after, and the solver returns the figure as it was. -/
theorem C66_stuck : ∃ c, Reaches 0 stuckOps c ∧
    (∃ c', Reaches 0 (stuckOps ++ [.updatePoint 2 0 (√(28 / 25))]) c' ∧ c'.sys.calculateResidual .pointPointDistance ⟨0, 0⟩ = .ok 0 ∧ c'.sys.calculateResidual .pointPointDistance ⟨0, 1⟩ = .ok 0) ∧
    ∀ (ls : LeastSquares ℝ) (_ : ls.Exact (fun _ _ _ => True)) (fuel : Nat) (ord : HashOrder) (s' : System ℝ),
      c.sys.solve (crateOptimize ls fuel) ord ⟨.levenbergMarquardt, .none, false⟩ = .ok s' →
      s' = c.sys ∧ s'.calculateResidual .pointPointDistance ⟨0, 0⟩ = .ok (-2 / 5) ∧ s'.calculateResidual .pointPointDistance ⟨0, 1⟩ = .ok (-2 / 5) := by
  obtain ⟨c, h⟩ := exists_reaches 0 stuckOps (by
    simp [stuckOps, Store.LegalRun, Store.Legal, Store.empty, Store.step, Store.IsPoint, Store.ConOk, Elem.kind, Store.primitives]) (by simp [stuckOps])
  obtain ⟨c', h'⟩ := exists_reaches 0 (stuckOps ++ [.updatePoint 2 0 (√(28 / 25))]) (by
    simp [stuckOps, Store.LegalRun, Store.Legal, Store.empty, Store.step, Store.IsPoint, Store.ConOk, Elem.kind, Store.primitives]) (by simp [stuckOps])
  refine ⟨c, h, ⟨c', h', ?_⟩, ?_⟩
  · have key : (do let c ← (Client.new ℝ 0).run (stuckOps ++ [.updatePoint 2 0 (√(28 / 25))])
                   let r ← c.sys.calculateResidual .pointPointDistance ⟨0, 0⟩
                   let r' ← c.sys.calculateResidual .pointPointDistance ⟨0, 1⟩
                   pure (r, r') : R _) = .ok ((ppdResGrad (-6 / 5 : ℝ) 0 0 (√(28 / 25)) (8 / 5)).1, (ppdResGrad (6 / 5 : ℝ) 0 0 (√(28 / 25)) (8 / 5)).1) := rfl
    rw [h'.run, ok_bind] at key
    simp only [bind_eq_ok, pure_eq_ok, Except.ok.injEq, Prod.mk.injEq] at key
    obtain ⟨r, k1, r', k2, rfl, rfl⟩ := key
    have hs : √(28 / 25 : ℝ) * √(28 / 25) = 28 / 25 := Real.mul_self_sqrt (by norm_num)
    have e1 : √((-6 / 5 - 0) * (-6 / 5 - 0) + (0 - √(28 / 25)) * (0 - √(28 / 25)) : ℝ) = 8 / 5 := by
      rw [show ((-6 / 5 - 0) * (-6 / 5 - 0) + (0 - √(28 / 25)) * (0 - √(28 / 25)) : ℝ) = (8 / 5) ^ 2 by nlinarith]
      exact Real.sqrt_sq (by norm_num)
    have e2 : √((6 / 5 - 0) * (6 / 5 - 0) + (0 - √(28 / 25)) * (0 - √(28 / 25)) : ℝ) = 8 / 5 := by
      rw [show ((6 / 5 - 0) * (6 / 5 - 0) + (0 - √(28 / 25)) * (0 - √(28 / 25)) : ℝ) = (8 / 5) ^ 2 by nlinarith]
      exact Real.sqrt_sq (by norm_num)
    rw [k1, k2]
    simp only [ppdResGrad, FloatOps.sqrt, square, e1, e2]
    norm_num
  intro ls hls fuel ord s' hs
  obtain ⟨h2, h3, h4, h5, h6, h7⟩ := stuck_sys h
  have h1 := stuck_components h
  have hsc : c.sys.scale = 1 := by
    unfold System.scale
    rw [h3, h5]
    show Real.sqrt ((0 + -6 / 5 * (-6 / 5) + 0 * 0 + 6 / 5 * (6 / 5) + 0 * 0 + 0 * 0 + 0 * 0 + 8 / 5 * (8 / 5) + 8 / 5 * (8 / 5)) / ((8 : ℕ) : ℝ)) = 1
    norm_num
  have hv : c.sys.scaledVariables = stuckSub.systemVariables := by
    unfold System.scaledVariables
    rw [hsc, h3]
    show [-6 / 5 * (1 / 1), 0 * (1 / 1), 6 / 5 * (1 / 1), 0 * (1 / 1), 0 * (1 / 1), 0 * (1 / (1 : ℝ))] = _
    norm_num [stuckSub]
  have he : c.sys.scaledExpressions = stuckSub.allExpressions := by
    unfold System.scaledExpressions
    rw [h5, hsc]
    show [Expr.pointPointDistance 0 4 (1 / 1 * (8 / 5)), .pointPointDistance 2 4 (1 / 1 * (8 / 5 : ℝ))] = _
    norm_num [stuckSub]
  have hfree : c.sys.freeVariables {0, 1, 2} = .ok {4, 5} := by
    unfold System.freeVariables
    rw [show ascending {0, 1, 2} = [0, 1, 2] by decide +kernel, h2, h4]
    have : ({4, 5} : Finset Nat) = ∅ ∪ ((EncodedElement.point 0).variableIndices.toFinset \ {0, 1, 2, 3}) ∪ ((EncodedElement.point 2).variableIndices.toFinset \ {0, 1, 2, 3}) ∪
      ((EncodedElement.point 4).variableIndices.toFinset \ {0, 1, 2, 3}) := by decide
    rw [this]
    rfl
  have hcons : (ascending {0, 1}).mapM c.sys.constraintExpressions = .ok [[0], [1]] := by
    rw [show ascending {0, 1} = [0, 1] by decide +kernel]
    unfold System.constraintExpressions
    rw [h6]
    rfl
  have hcomp : ∀ st', solveComponent (crateOptimize ls fuel) ord ⟨.levenbergMarquardt, .none, false⟩ c.sys c.sys.scale stuckSub.allExpressions
      ⟨c.sys.vars, stuckSub.systemVariables, 42, []⟩ (⟨{0, 1, 2}, {0, 1}⟩, 0) = .ok st' → st'.vars = c.sys.vars := by
    intro st' hc
    unfold solveComponent at hc
    rw [if_neg (by simp), hfree, ok_bind, still, ok_bind] at hc
    have hc : solveWhole (crateOptimize ls fuel) ⟨.levenbergMarquardt, .none, false⟩ c.sys c.sys.scale stuckSub.allExpressions {0, 1} {4, 5} ⟨c.sys.vars, stuckSub.systemVariables, 42, []⟩ = .ok st' := hc
    unfold solveWhole at hc
    rw [show ascending {4, 5} = [4, 5] by decide +kernel] at hc
    have hval : [4, 5].mapM (idx stuckSub.systemVariables) = .ok [0, 0] := rfl
    rw [hval, ok_bind, hcons, ok_bind, bind_eq_ok] at hc
    obtain ⟨x, hx, hc⟩ := hc
    have hx : x = [0, 0] := stuck_lm hls hx
    subst hx
    have hw : [4, 5].zipIdx.foldlM (writeVars c.sys.scale [0, 0]) c.sys.vars = .ok c.sys.vars := by
      rw [h3, hsc]
      show Except.ok [-6 / 5, 0, 6 / 5, 0, 1 * 0, 1 * (0 : ℝ)] = _
      norm_num
    rw [hw, ok_bind] at hc
    cases hc
    rfl
  have hs' : s' = c.sys := by
    unfold System.solve System.solveLoop at hs
    rw [h1, hv, he] at hs
    simp only [List.zipIdx_cons, List.zipIdx_nil, List.foldlM_cons, List.foldlM_nil, bind_eq_ok] at hs
    obtain ⟨st, ⟨st', hs1, hs2⟩, hs3⟩ := hs
    cases hs2
    cases hs3
    rw [hcomp st hs1]
  subst hs'
  have key : (do let c ← (Client.new ℝ 0).run stuckOps
                 let r ← c.sys.calculateResidual .pointPointDistance ⟨0, 0⟩
                 let r' ← c.sys.calculateResidual .pointPointDistance ⟨0, 1⟩
                 pure (r, r') : R _) = .ok ((ppdResGrad (-6 / 5 : ℝ) 0 0 0 (8 / 5)).1, (ppdResGrad (6 / 5 : ℝ) 0 0 0 (8 / 5)).1) := rfl
  rw [h.run, ok_bind, stuck_left, stuck_right] at key
  simp only [bind_eq_ok, pure_eq_ok, Except.ok.injEq, Prod.mk.injEq] at key
  obtain ⟨r, k1, r', k2, rfl, rfl⟩ := key
  exact ⟨rfl, k1, k2⟩

end Fiksi
