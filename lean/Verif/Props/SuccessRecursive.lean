import Verif.Props.SuccessWitness
import Verif.Props.ClusterJacobian
/-!
# C62 fails for recursive assembly

Each step of recursive assembly makes the lengths it reads free again, but only the poses of clusters of points keep what earlier steps have solved. A circle through two points is solved
for the first point, then for the second one with a new radius. (`assemble/mod.rs:437-448`)
-/
namespace Fiksi
open Spec

/-- Two points shall lie on a circle. The first one does. -/
noncomputable def roundOps : List (Op ℝ) :=
  [.createPoint 2 0, .createPoint (-1) 0, .createPoint 1 0, .createLength 1, .createCircle 2 3, .createCon (.pointCircleIncidence 0 4), .createCon (.pointCircleIncidence 1 4)]

theorem round_sys {c : Client ℝ} (h : Reaches 0 roundOps c) : c.sys.id = 0 ∧ c.sys.elements = [.point 0, .point 2, .point 4, .length 6, .circle 4 6] ∧
    c.sys.vars = [2, 0, -1, 0, 1, 0, 1] ∧ c.sys.fixedVariables = ∅ ∧ c.sys.expressions = [.pointCircleIncidence 0 4 6, .pointCircleIncidence 2 4 6] ∧
    c.sys.constraints = [⟨.pointCircleIncidence, 0⟩, ⟨.pointCircleIncidence, 1⟩] := by
  have key : (do let c ← (Client.new ℝ 0).run roundOps
                 pure (c.sys.id, c.sys.elements, c.sys.vars, c.sys.fixedVariables, c.sys.expressions, c.sys.constraints) : R _) =
    .ok (0, [.point 0, .point 2, .point 4, .length 6, .circle 4 6], [2, 0, -1, 0, 1, 0, 1], ∅, [.pointCircleIncidence 0 4 6, .pointCircleIncidence 2 4 6],
      [⟨.pointCircleIncidence, 0⟩, ⟨.pointCircleIncidence, 1⟩]) := rfl
  rw [h.run, ok_bind] at key
  simpa [pure_eq_ok] using key

theorem round_components {c : Client ℝ} (h : Reaches 0 roundOps c) : c.sys.graph.components = [⟨{0, 1, 2, 3}, {0, 1}⟩] := by
  have h2 : okAnd ((Client.new ℝ 0).run roundOps) (fun c => c.sys.graph.components.map (fun k => (k.elements, k.constraints)) = [({0, 1, 2, 3}, {0, 1})]) = true := by decide +kernel
  rw [h.run] at h2
  exact components_of_pairs (of_decide_eq_true h2)

/-- The two steps of its plan. -/
def roundStep1 : RecombinationStep :=
  ⟨[0], [0, 2, 3], [], [(0, [0, 1, 5]), (2, [0, 2, 4, 5]), (3, [1, 3, 4]), (1, [2, 3, 5])], [(0, [0, 2]), (1, [3]), (2, [1])],
    [(0, [0, 2]), (1, [0, 3]), (2, [1, 2]), (3, [1, 3]), (4, [2, 3]), (5, [0, 1, 2])]⟩
/-- See above. -/
def roundStep2 : RecombinationStep :=
  ⟨[1], [1, 2, 3], [], [(2, [5, 2, 4, 6]), (3, [1, 3, 4, 6, 7]), (1, [2, 3, 5, 7]), (0, [7])], [(1, [3]), (2, [1]), (6, [0, 2])],
    [(1, [0, 3]), (2, [1, 2]), (3, [1, 3]), (4, [2, 3]), (5, [0, 1, 2]), (6, [2, 3]), (7, [0, 1, 3])]⟩

theorem RecombinationStep.data_injective {a b : RecombinationStep} (h : a.data = b.data) : a = b := by
  cases a
  cases b
  simp only [RecombinationStep.data, Prod.mk.injEq] at h
  obtain ⟨⟨rfl, rfl, rfl⟩, rfl, rfl, rfl⟩ := h
  rfl

theorem okAnd_ok {α : Type} {x : R α} {p : α → Bool} (h : okAnd x p = true) : ∃ a, x = .ok a ∧ p a = true := by
  cases x with
  | ok a => exact ⟨a, rfl, h⟩
  | error e => exact absurd h (by simp [okAnd])

theorem round_plan {c : Client ℝ} (h : Reaches 0 roundOps c) :
    decompose 3 (fun tag => ascendingOrder (0 :: 1 :: tag)) c.sys.graph.toD {0, 1, 2, 3} {0, 1} = .ok [roundStep1, roundStep2] := by
  have h2 : okAnd ((Client.new ℝ 0).run roundOps) (fun c => okAnd (decompose 3 (fun tag => ascendingOrder (0 :: 1 :: tag)) c.sys.graph.toD {0, 1, 2, 3} {0, 1})
    (fun (s : List RecombinationStep) => s.map RecombinationStep.data == [roundStep1.data, roundStep2.data])) = true := by decide +kernel
  rw [h.run] at h2
  obtain ⟨l, hl, h3⟩ := okAnd_ok (show okAnd (decompose 3 (fun tag => ascendingOrder (0 :: 1 :: tag)) c.sys.graph.toD {0, 1, 2, 3} {0, 1})
    (fun (s : List RecombinationStep) => s.map RecombinationStep.data == [roundStep1.data, roundStep2.data]) = true from h2)
  rw [hl]
  have h4 : l.map RecombinationStep.data = [roundStep1, roundStep2].map RecombinationStep.data := by simpa using h3
  rw [List.map_injective_iff.2 (fun a b => RecombinationStep.data_injective) h4]

/-- The problems of the two steps. -/
def roundCluster1 : ClusteredSystem :=
  ⟨25, [0, 2, 3, 1], [(0, [0, 2]), (1, [0]), (5, [0, 2, 1]), (2, [2, 1]), (4, [2]), (3, [1])], [0], 20, [(0, 18), (1, 19), (4, 20), (5, 21), (6, 22), (2, 23), (3, 24)]⟩
/-- See above. -/
def roundCluster2 : ClusteredSystem :=
  ⟨23, [1, 2, 3], [(2, [1, 2]), (3, [1]), (5, [1, 2]), (7, [1]), (4, [2]), (6, [2])], [1], 16, [(2, 18), (3, 19), (4, 20), (5, 21), (6, 22)]⟩

/-- The figure. -/
noncomputable def roundFigure : List ℝ := [2, 0, -1, 0, 1, 0, 1]
/-- The figure with the radius `2`. -/
noncomputable def roundFigure2 : List ℝ := [2, 0, -1, 0, 1, 0, 2]
/-- The equations. -/
noncomputable def roundExprs : List (Expr ℝ) := [.pointCircleIncidence 0 4 6, .pointCircleIncidence 2 4 6]

/-- The values given to the optimiser, and the second ones it returns. -/
noncomputable def roundValues1 : List ℝ := [0, 0, 0, 0, 0, 0, 0, 0, 0, 0, 0, 0, 0, 0, 0, 0, 0, 0, 2, 0, 1, 0, 1, -1, 0]
/-- See above. -/
noncomputable def roundValues2 : List ℝ := [0, 0, 0, 0, 0, 0, 0, 0, 0, 0, 0, 0, 0, 0, 0, 0, 0, 0, -1, 0, 1, 0, 1]
/-- See above. -/
noncomputable def roundValues3 : List ℝ := [0, 0, 0, 0, 0, 0, 0, 0, 0, 0, 0, 0, 0, 0, 0, 0, 0, 0, -1, 0, 1, 0, 2]

/-- An optimiser that solves the second problem with the radius alone. -/
noncomputable def roundOptimize : Optimize ℝ := fun _ _ v => .ok (if v.length = 25 then v else v.set 22 2)

/-- Rows of pose equations whose poses are at rest. -/
noncomputable def restRows (l : List (ℝ × ℝ)) : List ℝ :=
  l.flatMap (fun p => [((⟨0, 0, 0⟩ : Pose2D ℝ).transformPoint p.1 p.2).1 - p.1, ((⟨0, 0, 0⟩ : Pose2D ℝ).transformPoint p.1 p.2).2 - p.2])

theorem restRows_zero {l : List (ℝ × ℝ)} : ∀ y ∈ restRows l, |y| ≤ 0 := by
  intro y hy
  simp only [restRows, List.mem_flatMap, List.mem_cons, List.not_mem_nil, or_false, transformPoint_zero, sub_self, or_self] at hy
  obtain ⟨-, -, rfl⟩ := hy
  simp

theorem pci_one {a b c d e : ℝ} : (pciResGrad a b c d e).1 = √((a - c) * (a - c) + (b - d) * (b - d)) - e := rfl

theorem round_residuals1 {s : System ℝ} (hs : s.elements = [.point 0, .point 2, .point 4, .length 6, .circle 4 6]) :
    ∃ r, (roundCluster1.problem s roundExprs roundFigure).residuals roundValues1 = .ok r ∧ ∀ y ∈ r, |y| ≤ 0 := by
  refine ⟨restRows [(2, 0), (1, 0), (2, 0), (2, 0), (1, 0), (-1, 0), (1, 0), (-1, 0), (1, 0), (-1, 0)] ++ [(pciResGrad (2 : ℝ) 0 1 0 1).1], ?_, ?_⟩
  · unfold ClusteredSystem.problem
    simp only
    unfold ClusteredSystem.calculateResiduals
    rw [hs]
    rfl
  · intro y hy
    rcases List.mem_append.1 hy with hy | hy
    · exact restRows_zero y hy
    · rw [List.mem_singleton.1 hy, pci_one]
      norm_num

theorem round_residuals2 {s : System ℝ} (hs : s.elements = [.point 0, .point 2, .point 4, .length 6, .circle 4 6]) :
    ∃ r, (roundCluster2.problem s roundExprs roundFigure).residuals roundValues3 = .ok r ∧ ∀ y ∈ r, |y| ≤ 0 := by
  refine ⟨restRows [(-1, 0), (1, 0), (-1, 0), (-1, 0), (1, 0), (-1, 0), (1, 0), (1, 0)] ++ [(pciResGrad (-1 : ℝ) 0 1 0 2).1], ?_, ?_⟩
  · unfold ClusteredSystem.problem
    simp only
    unfold ClusteredSystem.calculateResiduals
    rw [hs]
    rfl
  · intro y hy
    rcases List.mem_append.1 hy with hy | hy
    · exact restRows_zero y hy
    · rw [List.mem_singleton.1 hy, pci_one]
      have : √(4 : ℝ) = 2 := by rw [show (4 : ℝ) = 2 * 2 by norm_num, Real.sqrt_mul_self (by norm_num)]
      norm_num [this]

theorem round_step1 {s : System ℝ} (hs : s.elements = [.point 0, .point 2, .point 4, .length 6, .circle 4 6]) (hc : s.constraints = [⟨.pointCircleIncidence, 0⟩, ⟨.pointCircleIncidence, 1⟩])
    (rng : Nat) : solveStep (roundOptimize.checked 0) s 1 roundExprs ⟨roundFigure, roundFigure, rng, []⟩ roundStep1 = .ok ⟨roundFigure, roundFigure, rng, [[0]]⟩ := by
  have hb : ClusteredSystem.build s roundFigure roundStep1 = .ok (roundCluster1, roundValues1) := by
    unfold ClusteredSystem.build System.constraintExpressions
    rw [hs, hc]
    rfl
  have ho : roundOptimize.checked 0 .levenbergMarquardt (roundCluster1.problem s roundExprs roundFigure) roundValues1 = .ok roundValues1 := by
    rw [Optimize.checked, show roundOptimize .levenbergMarquardt (roundCluster1.problem s roundExprs roundFigure) roundValues1 = .ok roundValues1 from rfl, ok_bind,
      if_pos (round_residuals1 hs)]
    rfl
  unfold solveStep
  rw [hb, ok_bind]
  refine (congrArg (· >>= _) ho).trans ?_
  rw [ok_bind]
  have h1 : roundCluster1.mapping.foldlM (writeTransformed roundValues1) roundFigure = .ok roundFigure := rfl
  have h2 : roundCluster1.mapping.foldlM (writeVars 1 roundValues1) roundFigure = .ok (roundFigure.map ((1 : ℝ) * ·)) := rfl
  have h3 : roundFigure.map ((1 : ℝ) * ·) = roundFigure := by simp
  rw [h3] at h2
  rw [h1, ok_bind, h2, ok_bind]
  unfold moveElement
  rw [hs]
  rfl

theorem round_step2 {s : System ℝ} (hs : s.elements = [.point 0, .point 2, .point 4, .length 6, .circle 4 6]) (hc : s.constraints = [⟨.pointCircleIncidence, 0⟩, ⟨.pointCircleIncidence, 1⟩])
    (rng : Nat) : ∃ st, solveStep (roundOptimize.checked 0) s 1 roundExprs ⟨roundFigure, roundFigure, rng, [[0]]⟩ roundStep2 = .ok st ∧ st.vars = roundFigure2 := by
  have hb : ClusteredSystem.build s roundFigure roundStep2 = .ok (roundCluster2, roundValues2) := by
    unfold ClusteredSystem.build System.constraintExpressions
    rw [hs, hc]
    rfl
  have ho : roundOptimize.checked 0 .levenbergMarquardt (roundCluster2.problem s roundExprs roundFigure) roundValues2 = .ok roundValues3 := by
    rw [Optimize.checked, show roundOptimize .levenbergMarquardt (roundCluster2.problem s roundExprs roundFigure) roundValues2 = .ok roundValues3 from rfl, ok_bind,
      if_pos (round_residuals2 hs)]
    rfl
  unfold solveStep
  rw [hb, ok_bind]
  have h1 : roundCluster2.mapping.foldlM (writeTransformed roundValues3) roundFigure = .ok roundFigure2 := rfl
  have h2 : roundCluster2.mapping.foldlM (writeVars 1 roundValues3) roundFigure = .ok [2, 0, 1 * -1, 1 * 0, 1 * 1, 1 * 0, 1 * 2] := rfl
  have h3 : [2, 0, (1 : ℝ) * -1, 1 * 0, 1 * 1, 1 * 0, 1 * 2] = roundFigure2 := by simp [roundFigure2]
  rw [h3] at h2
  have hm : ∀ st : SolveState ℝ, st.transformed = roundFigure2 → st.vars = roundFigure2 → ∃ st', roundCluster2.clusters.keys.zipIdx.foldlM (fun (st : SolveState ℝ) (ck : Nat × Nat) => do
      let pose ← poseAt roundValues3 ck.2
      ((roundStep2.ownedElements.get? ck.1).getD []).foldlM (moveElement s 1 roundCluster2.stepPlusFrontierElements pose) st) st = .ok st' ∧ st'.vars = roundFigure2 := by
    rintro ⟨V, T, rng, calls⟩ rfl rfl
    refine ⟨⟨[1 * ((⟨0, 0, 0⟩ : Pose2D ℝ).transformPoint 2 0).1, 1 * ((⟨0, 0, 0⟩ : Pose2D ℝ).transformPoint 2 0).2, -1, 0, 1, 0, 2],
        [((⟨0, 0, 0⟩ : Pose2D ℝ).transformPoint 2 0).1, ((⟨0, 0, 0⟩ : Pose2D ℝ).transformPoint 2 0).2, -1, 0, 1, 0, 2], rng, calls⟩, ?_, ?_⟩
    · unfold moveElement
      rw [hs]
      rfl
    · simp [transformPoint_zero, roundFigure2]
  obtain ⟨st', hst', hv⟩ := hm ⟨roundFigure2, roundFigure2, rng, [[0]] ++ [roundCluster2.expressions]⟩ rfl rfl
  refine ⟨st', ?_, hv⟩
  refine (congrArg (· >>= _) ho).trans ?_
  rw [ok_bind, h1, ok_bind, h2, ok_bind]
  exact hst'

/-- C62 is false for recursive assembly: both calls of the optimiser end at residuals of zero, `solve` succeeds, and the first point no longer lies on the circle. -/
theorem C62_recursive_unsatisfied_after_success : ∃ (c : Client ℝ) (s' : System ℝ), Reaches 0 roundOps c ∧ ((Store.empty ℝ).run roundOps).NonZero ∧
    NeverJoins ((Store.empty ℝ).run roundOps).arguments ∧ c.conHandles[0]? = some ⟨0, 0⟩ ∧
    c.sys.solve (roundOptimize.checked 0) ascendingOrder ⟨.levenbergMarquardt, .recursiveAssembly, false⟩ = .ok s' ∧
    c.sys.solve roundOptimize ascendingOrder ⟨.levenbergMarquardt, .recursiveAssembly, false⟩ = .ok s' ∧
    c.sys.calculateResidual .pointCircleIncidence ⟨0, 0⟩ = .ok 0 ∧ s'.calculateResidual .pointCircleIncidence ⟨0, 0⟩ = .ok (-1) := by
  obtain ⟨c, h⟩ := exists_reaches 0 roundOps (by
    simp [roundOps, Store.LegalRun, Store.Legal, Store.empty, Store.step, Store.IsPoint, Store.IsLength, Store.IsCircle, Store.ConOk]) (by simp [roundOps])
  obtain ⟨h0, h2, h3, h4, h5, h6⟩ := round_sys h
  have h1 := round_components h
  have hh := h.crel.conHandle (i := 0) (by show 0 < 2; norm_num)
  rw [h0] at hh
  have hsc : c.sys.scale = 1 := by
    unfold System.scale
    rw [h3, h5]
    show Real.sqrt ((0 + 2 * 2 + 0 * 0 + -1 * -1 + 0 * 0 + 1 * 1 + 0 * 0 + 1 * 1) / ((7 : ℕ) : ℝ)) = 1
    norm_num
  have hv : c.sys.scaledVariables = roundFigure := by
    unfold System.scaledVariables
    rw [hsc, h3]
    show [2 * (1 / 1), 0 * (1 / 1), -1 * (1 / 1), 0 * (1 / 1), 1 * (1 / 1), 0 * (1 / 1), 1 * (1 / (1 : ℝ))] = _
    norm_num [roundFigure]
  have he : c.sys.scaledExpressions = roundExprs := by
    unfold System.scaledExpressions
    rw [h5]
    rfl
  have hfree : c.sys.freeVariables {0, 1, 2, 3} = .ok (Finset.range 7) := by
    unfold System.freeVariables
    rw [show ascending {0, 1, 2, 3} = [0, 1, 2, 3] by decide +kernel, h2, h4]
    have : Finset.range 7 = ∅ ∪ ((EncodedElement.point 0).variableIndices.toFinset \ ∅) ∪ ((EncodedElement.point 2).variableIndices.toFinset \ ∅) ∪
      ((EncodedElement.point 4).variableIndices.toFinset \ ∅) ∪ ((EncodedElement.length 6).variableIndices.toFinset \ ∅) := by decide
    rw [this]
    rfl
  obtain ⟨st, hst, hstv⟩ := round_step2 h2 h6 42
  have hs : c.sys.solve (roundOptimize.checked 0) ascendingOrder ⟨.levenbergMarquardt, .recursiveAssembly, false⟩ = .ok { c.sys with vars := roundFigure2 } := by
    have hcomp : solveComponent (roundOptimize.checked 0) ascendingOrder ⟨.levenbergMarquardt, .recursiveAssembly, false⟩ c.sys c.sys.scale roundExprs
        ⟨c.sys.vars, roundFigure, 42, []⟩ (⟨{0, 1, 2, 3}, {0, 1}⟩, 0) = .ok st := by
      unfold solveComponent
      rw [if_neg (by simp), hfree, ok_bind, still, ok_bind]
      show solveRecursive _ _ _ _ _ _ _ _ = _
      unfold solveRecursive
      rw [round_plan h, ok_bind, List.foldlM_cons, hsc, h3]
      refine (congrArg (· >>= _) (round_step1 h2 h6 42)).trans ?_
      rw [ok_bind, List.foldlM_cons, hst, ok_bind]
      rfl
    unfold System.solve System.solveLoop
    rw [h1, hv, he]
    simp only [List.zipIdx_cons, List.zipIdx_nil, List.foldlM_cons, List.foldlM_nil]
    rw [hcomp, ← hstv]
    rfl
  refine ⟨c, _, h, ⟨.point 2 0, by simp [roundOps, Store.run, Store.empty, Store.step], .inl ⟨2, 0, rfl, .inl (by norm_num)⟩⟩, ?_, hh, hs,
    solve_mono (fun o p x x' hx => Optimize.of_checked hx) hs, ?_, ?_⟩
  · have harg : ((Store.empty ℝ).run roundOps).arguments = [[0, 2, 3], [1, 2, 3]] := rfl
    rw [harg]
    intro m l hm i hi j hj hci hcj
    have hlen := lt_of_getElem? hm
    simp only [List.length_cons, List.length_nil] at hlen
    obtain ⟨a, ha, hia⟩ := hci
    obtain ⟨b, hb, hjb⟩ := hcj
    have hm' : m = 1 := by
      rcases (show m = 0 ∨ m = 1 by omega) with rfl | rfl
      · simp at ha
      · rfl
    subst hm'
    simp only [List.take_succ_cons, List.take_zero, List.mem_singleton] at ha hb
    subst ha hb
    exact .single ⟨_, by simp, hia, hjb⟩
  · unfold System.calculateResidual System.residualOf
    simp only [h0, h3, h5, h6]
    rw [if_neg (by simp)]
    have : (Except.ok (pciResGrad 2 0 1 0 1).1 : R ℝ) = .ok 0 := by
      rw [pci_one]
      norm_num
    rw [← this]
    rfl
  · unfold System.calculateResidual System.residualOf
    simp only [h0, h5, h6]
    rw [if_neg (by simp)]
    have : (Except.ok (pciResGrad 2 0 1 0 2).1 : R ℝ) = .ok (-1) := by
      rw [pci_one]
      norm_num
    rw [← this]
    rfl

end Fiksi
