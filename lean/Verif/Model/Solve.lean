import Verif.Model.Scale
import Verif.Model.Subsystem
import Verif.Model.Scc
import Verif.Model.Decompose
import Verif.Model.Rng
/-!
# Solving (`fiksi/src/assemble/mod.rs`)

The numerical optimisers are a parameter `optimize`. Iteration orders of hash sets are asked from `ord` (see `HashOrder`); the tag
starts with the number of the component.
-/
namespace Fiksi

/-- `Decomposer`, `lib.rs:154-201`. -/
inductive Decomposer where
  | none | singlePass | recursiveAssembly
  deriving DecidableEq, Repr

/-- `Optimizer`, `solve/mod.rs:17-27`. -/
inductive Optimizer where
  | levenbergMarquardt | lBfgs
  deriving DecidableEq, Repr

/-- `SolvingOptions`, `lib.rs:205-218`. -/
structure SolvingOptions where
  optimizer : Optimizer
  decomposer : Decomposer
  perturb : Bool

/-- `SolvingOptions::DEFAULT`, `lib.rs:232-236`. -/
def SolvingOptions.default : SolvingOptions := ⟨.levenbergMarquardt, .none, true⟩

/-- The trait `Problem`, `solve/mod.rs:29-49`. The functions get and return the buffers they write to; `residuals` overwrites all
of its buffer, which is therefore not passed. -/
structure Problem (F : Type) where
  numVariables : Nat
  numResiduals : Nat
  residuals : List F → R (List F)
  denseJacobian : List F → List F → List F → R (List F × List F)
  sparseJacobian : List F → List F → List (Nat × Nat × F) → R (List F × List (Nat × Nat × F))

/-- `levenberg_marquardt` and `lbfgs`: the new values of the variables. -/
abbrev Optimize (F : Type) := Optimizer → Problem F → List F → R (List F)

section
variable {F : Type} [Add F] [Sub F] [Mul F] [Div F] [Neg F] [Zero F] [One F] [FloatOps F]

/-- `impl Problem for Subsystem`, `subsystem.rs:71-167`. -/
def Subsystem.problem (sub : Subsystem F) : Problem F where
  numVariables := sub.freeVariables.length
  numResiduals := sub.expressions.length
  residuals := sub.calculateResiduals
  denseJacobian := sub.denseJacobian
  sparseJacobian := sub.sparseJacobian

/-! ## Clustered systems, `assemble/mod.rs:282-725` -/

/-- `ClusteredSystem`, `assemble/mod.rs:283-314`. -/
structure ClusteredSystem where
  numVariables : Nat
  stepPlusFrontierElements : List Nat
  clusters : IMap Nat (List Nat)
  expressions : List Nat
  numPoseExpressions : Nat
  mapping : IMap Nat Nat

/-- The expression indices of a constraint, e.g. `assemble/mod.rs:330-333` and `assemble/mod.rs:138-144`. -/
def System.constraintExpressions (s : System F) (constraint : Nat) : R (List Nat) := do
  let c ← idx s.constraints constraint
  pure ((List.range c.tag.valency).map (fun offset => c.expressionsIdx + offset))

/-- Add the clusters of an element that are not in the list yet, `assemble/mod.rs:358-364`, `375-381`. -/
def reachClusters (reachable : List Nat) (clusters : Option (List Nat)) : List Nat :=
  (clusters.getD []).foldl (fun r c => if r.contains c then r else r ++ [c]) reachable

/-- `matches!(element, &EncodedElement::Point { .. })`. -/
def EncodedElement.isPoint : EncodedElement → Bool
  | .point _ => true
  | _ => false

/-- The first loop, `assemble/mod.rs:351-365`. -/
def initialClusters (elements : List EncodedElement) (step : RecombinationStep) : R (List Nat) :=
  step.elements.foldlM (fun (reachable : List Nat) elementId => do
    let element ← idx elements elementId
    pure (if element.isPoint then reachClusters reachable (step.onFrontiers.get? elementId) else reachable)) []

/-- The body of the loop over the frontier elements of a cluster, `assemble/mod.rs:369-391`. State: reachable clusters, elements. -/
def followElement (elements : List EncodedElement) (step : RecombinationStep) (st : List Nat × List Nat) (elementId : Nat) :
    R (List Nat × List Nat) := do
  let element ← idx elements elementId
  if element.isPoint then
    let clusters := step.onFrontiers.get? elementId
    let reachable := reachClusters st.1 clusters
    let numFrontiers := (clusters.map List.length).getD 0
    if !st.2.contains elementId && decide (numFrontiers > 1) then pure (reachable, st.2 ++ [elementId])
    else pure (reachable, st.2)
  else pure st

/-- The `while` loop, `assemble/mod.rs:366-392`, from cluster number `i` on. -/
def followClusters (elements : List EncodedElement) (step : RecombinationStep) : Nat → Nat → List Nat × List Nat → R (List Nat)
  | 0, _, _ => .error .outOfFuel
  | fuel + 1, i, st =>
      match st.1[i]? with
      | none => .ok st.2
      | some cluster => do
          let frontier ← unwrap (step.frontierElements.get? cluster)
          let st ← frontier.foldlM (followElement elements step) st
          followClusters elements step fuel (i + 1) st

/-- The loop that collects clusters, `assemble/mod.rs:395-429`. State: clusters, number of pose expressions. -/
def collectClusters (elements : List EncodedElement) (step : RecombinationStep) (st : IMap Nat (List Nat) × Nat) (elementId : Nat) :
    R (IMap Nat (List Nat) × Nat) := do
  let element ← idx elements elementId
  match step.onFrontiers.get? elementId with
  | none => pure st
  | some clusters =>
      if element.isPoint then
        pure (clusters.foldl (fun (m : IMap Nat (List Nat)) c => m.pushEntry c elementId) st.1, st.2 + 2 * clusters.length)
      else pure st

/-- The loop that adds the element variables, `assemble/mod.rs:437-475`. State: mapping, variables. -/
def addElementVariables (elements : List EncodedElement) (transformed : List F) (st : IMap Nat Nat × List F) (elementId : Nat) :
    R (IMap Nat Nat × List F) := do
  match ← idx elements elementId with
  | .length i => do
      let v ← idx transformed i
      pure (st.1.insert i st.2.length, st.2 ++ [v])
  | .point i => do
      let x ← idx transformed i
      let y ← idx transformed (i + 1)
      pure ((st.1.insert i st.2.length).insert (i + 1) (st.2.length + 1), st.2 ++ [x, y])
  | .line _ _ => pure st
  | .circle _ _ => pure st

/-- `ClusteredSystem::build`, `assemble/mod.rs:317-477`: the clustered system and the variables. (`debug_assert!`s are not
modelled.) -/
def ClusteredSystem.build (s : System F) (transformed : List F) (step : RecombinationStep) : R (ClusteredSystem × List F) := do
  let expressions ← step.constraints.mapM s.constraintExpressions
  let reachable ← initialClusters s.elements step
  let elements ← followClusters s.elements step ((step.onFrontiers.flatMap Prod.snd).length + 1) 0 (reachable, step.elements)
  let (clusters, numPose) ← elements.foldlM (collectClusters s.elements step) ([], 0)
  let (mapping, values) ← elements.foldlM (addElementVariables s.elements transformed)
    (([] : IMap Nat Nat), List.replicate (clusters.length * 3) (0 : F))
  pure (⟨values.length, elements, clusters, expressions.flatten, numPose, mapping⟩, values)

/-- The value of a mapped variable, `assemble/mod.rs:509-514`, `649-653`. -/
def ClusteredSystem.variable (cs : ClusteredSystem) (values : List F) (v : Nat) : R (Variable F) := do
  let i ← unwrap (cs.mapping.get? v)
  let x ← idx values i
  pure (.free x i)

/-- The pose of cluster number `k`, `assemble/mod.rs:542-547`. -/
def poseAt (values : List F) (k : Nat) : R (Pose2D F) := do
  let r ← idx values (3 * k)
  let x ← idx values (3 * k + 1)
  let y ← idx values (3 * k + 2)
  pure ⟨r, x, y⟩

/-- The residuals and Jacobian entries of one point of a cluster, `assemble/mod.rs:548-587`: old position, index and value of the
new position. -/
def ClusteredSystem.pointTerm (cs : ClusteredSystem) (elements : List EncodedElement) (transformed values : List F) (point : Nat) :
    R ((F × F) × Nat × (F × F)) := do
  match ← idx elements point with
  | .point i => do
      let x ← idx transformed i
      let y ← idx transformed (i + 1)
      let u ← unwrap (cs.mapping.get? i)
      let x' ← idx values u
      let y' ← idx values (u + 1)
      pure ((x, y), u, (x', y'))
  | _ => .error .unreachable

/-- One point, `assemble/mod.rs:548-587`. State: next row, residuals, triplets. -/
def ClusteredSystem.pointRows (cs : ClusteredSystem) (elements : List EncodedElement) (transformed values : List F) (k : Nat)
    (pose : Pose2D F) (st : Nat × List F × List (Nat × Nat × F)) (point : Nat) : R (Nat × List F × List (Nat × Nat × F)) := do
  let ((x, y), u, (x', y')) ← cs.pointTerm elements transformed values point
  let t := pose.transformPoint x y
  let residuals ← setIdx st.2.1 st.1 (t.1 - x')
  let residuals ← setIdx residuals (st.1 + 1) (t.2 - y')
  let gx := pose.gradientChainRulePoint x y 1 0
  let gy := pose.gradientChainRulePoint x y 0 1
  pure (st.1 + 2, residuals, st.2.2 ++
    [(st.1, 3 * k, gx.1), (st.1, 3 * k + 1, gx.2.1), (st.1, 3 * k + 2, gx.2.2),
     (st.1 + 1, 3 * k, gy.1), (st.1 + 1, 3 * k + 1, gy.2.1), (st.1 + 1, 3 * k + 2, gy.2.2),
     (st.1, u, -1), (st.1 + 1, u + 1, -1)])

/-- `ClusteredSystem::calculate_residuals_and_jacobian`, `assemble/mod.rs:488-590`: residuals and pushed triplets. -/
def ClusteredSystem.residualsAndTriplets (cs : ClusteredSystem) (s : System F) (exprs : List (Expr F)) (transformed values : List F)
    (residuals : List F) (triplets : List (Nat × Nat × F)) : R (List F × List (Nat × Nat × F)) := do
  let (residuals, triplets) ← cs.expressions.zipIdx.foldlM (fun (st : List F × List (Nat × Nat × F)) (ei : Nat × Nat) => do
    let e ← idx exprs ei.1
    let vars ← e.variableIndices.mapM (cs.variable values)
    let rg ← e.computeResidualAndGradient (vars.map Variable.value)
    let residuals ← setIdx st.1 (cs.numPoseExpressions + ei.2) rg.1
    pure (residuals, st.2 ++ pushRow (cs.numPoseExpressions + ei.2) (vars.zip rg.2))) (residuals, triplets)
  let (_, residuals, triplets) ← cs.clusters.zipIdx.foldlM
    (fun (st : Nat × List F × List (Nat × Nat × F)) (ck : (Nat × List Nat) × Nat) => do
      let pose ← poseAt values ck.2
      ck.1.2.foldlM (cs.pointRows s.elements transformed values ck.2 pose) st) (0, residuals, triplets)
  pure (residuals, triplets)

/-- `<(&mut ClusteredSystem, &System) as Problem>::calculate_residuals`, `assemble/mod.rs:631-689`. -/
def ClusteredSystem.calculateResiduals (cs : ClusteredSystem) (s : System F) (exprs : List (Expr F)) (transformed values : List F) :
    R (List F) := do
  let residuals ← cs.expressions.zipIdx.foldlM (fun (residuals : List F) (ei : Nat × Nat) => do
    let e ← idx exprs ei.1
    let vars ← e.variableIndices.mapM (cs.variable values)
    let rg ← e.computeResidualAndGradient (vars.map Variable.value)
    setIdx residuals (cs.numPoseExpressions + ei.2) rg.1) (List.replicate (cs.expressions.length + cs.numPoseExpressions) (0 : F))
  let (_, residuals) ← cs.clusters.zipIdx.foldlM
    (fun (st : Nat × List F) (ck : (Nat × List Nat) × Nat) => do
      let pose ← poseAt values ck.2
      ck.1.2.foldlM (fun (st : Nat × List F) point => do
        let ((x, y), _, (x', y')) ← cs.pointTerm s.elements transformed values point
        let t := pose.transformPoint x y
        let residuals ← setIdx st.2 st.1 (t.1 - x')
        let residuals ← setIdx residuals (st.1 + 1) (t.2 - y')
        pure (st.1 + 2, residuals)) st) (0, residuals)
  pure residuals

/-- `impl Problem for (&mut ClusteredSystem, &System)`, `assemble/mod.rs:620-725`; the dense Jacobian goes through `DenseColMat`,
`assemble/mod.rs:608-618`. -/
def ClusteredSystem.problem (cs : ClusteredSystem) (s : System F) (exprs : List (Expr F)) (transformed : List F) : Problem F where
  numVariables := cs.numVariables
  numResiduals := cs.expressions.length + cs.numPoseExpressions
  residuals := cs.calculateResiduals s exprs transformed
  denseJacobian := fun values residuals jacobian => do
    let (residuals, triplets) ← cs.residualsAndTriplets s exprs transformed values residuals []
    let jacobian ← triplets.foldlM (fun (m : List F) (t : Nat × Nat × F) => setIdx m (t.1 * cs.numVariables + t.2.1) t.2.2) jacobian
    pure (residuals, jacobian)
  sparseJacobian := cs.residualsAndTriplets s exprs transformed

/-! ## `solve`, `assemble/mod.rs:46-280` -/

/-- What `solve` changes: `variables`, `variables_transformed` and the generator. `calls` is not in the code: it records which
expressions were handed to the optimiser, one entry per call. -/
structure SolveState (F : Type) where
  vars : List F
  transformed : List F
  rng : Nat
  calls : List (List Nat)

/-- The variable indices of an element, `assemble/mod.rs:94-105`. -/
def EncodedElement.variableIndices : EncodedElement → List Nat
  | .length i => [i]
  | .point i => [i, i + 1]
  | .line a b => [a, a + 1, b, b + 1]
  | .circle c r => [c, c + 1, r]

/-- `free_variables`, `assemble/mod.rs:91-111`. -/
def System.freeVariables (s : System F) (elements : Finset Nat) : R (Finset Nat) :=
  (ascending elements).foldlM (fun (free : Finset Nat) elementId => do
    let element ← idx s.elements elementId
    pure (free ∪ (element.variableIndices.toFinset \ s.fixedVariables))) ∅

/-- The body of the perturbation loop, `assemble/mod.rs:115-122`. -/
def perturbVariable (st : SolveState F) (v : Nat) : R (SolveState F) := do
  let x ← idx st.transformed v
  let r1 := rngNextF64 (F := F) st.rng
  let r2 := rngNextF64 (F := F) r1.2
  let transformed ← setIdx st.transformed v
    (x + (x * (1 / FloatOps.ofNat 8196) * r1.1 + (1 / FloatOps.ofNat 65568) * r2.1))
  pure { st with transformed := transformed, rng := r2.2 }

/-- Write the values of the free variables back to `variables`, `assemble/mod.rs:161-166`. -/
def writeVars (scale : F) (values : List F) (vars : List F) (vi : Nat × Nat) : R (List F) := do
  let x ← idx values vi.2
  setIdx vars vi.1 (scale * x)

/-- Write the values to `variables_transformed`, `assemble/mod.rs:204-205`. -/
def writeTransformed (values : List F) (transformed : List F) (vi : Nat × Nat) : R (List F) := do
  let x ← idx values vi.2
  setIdx transformed vi.1 x

/-- `Decomposer::None`, `assemble/mod.rs:127-167`. -/
def solveWhole (optimize : Optimize F) (opts : SolvingOptions) (s : System F) (scale : F) (exprs : List (Expr F))
    (constraints free : Finset Nat) (st : SolveState F) : R (SolveState F) := do
  let values ← (ascending free).mapM (idx st.transformed)
  let expressions ← (ascending constraints).mapM s.constraintExpressions
  let sub : Subsystem F := ⟨st.transformed, exprs, expressions.flatten, ascending free⟩
  let values ← optimize opts.optimizer sub.problem values
  let vars ← (ascending free).zipIdx.foldlM (writeVars scale values) st.vars
  pure { st with vars := vars, calls := st.calls ++ [sub.expressions] }

/-- One block of `Decomposer::SinglePass`, `assemble/mod.rs:175-208`; `freeList` is the block's `free_variables`. (The two
assignments of the last loop write to different vectors; the loop is split in two.) -/
def solveBlock (optimize : Optimize F) (opts : SolvingOptions) (scale : F) (exprs : List (Expr F))
    (freeList expressions : List Nat) (st : SolveState F) : R (SolveState F) := do
  let values ← freeList.mapM (idx st.transformed)
  let sub : Subsystem F := ⟨st.transformed, exprs, expressions, freeList⟩
  let values ← optimize opts.optimizer sub.problem values
  let transformed ← freeList.zipIdx.foldlM (writeTransformed values) st.transformed
  let vars ← freeList.zipIdx.foldlM (writeVars scale values) st.vars
  pure { st with vars := vars, transformed := transformed, calls := st.calls ++ [sub.expressions] }

/-- `Decomposer::SinglePass`, `assemble/mod.rs:169-210`. -/
def solveSinglePass (optimize : Optimize F) (ord : HashOrder) (opts : SolvingOptions) (s : System F) (scale : F)
    (exprs : List (Expr F)) (component : Nat) (free : Finset Nat) (st : SolveState F) : R (SolveState F) := do
  let blocks ← s.equationGraph.findStronglyConnectedExpressions free
  blocks.zipIdx.foldlM (fun (st : SolveState F) (bi : Block × Nat) =>
    solveBlock optimize opts scale exprs (ord [component, 0, bi.2] bi.1.freeVariables) bi.1.expressions st) st

/-- Move an element with its cluster, `assemble/mod.rs:246-274`. -/
def moveElement (s : System F) (scale : F) (elements : List Nat) (pose : Pose2D F) (st : SolveState F) (elementId : Nat) :
    R (SolveState F) := do
  if elements.contains elementId then pure st
  else
    match ← idx s.elements elementId with
    | .point i => do
        let x ← idx st.transformed i
        let y ← idx st.transformed (i + 1)
        let t := pose.transformPoint x y
        let transformed ← setIdx st.transformed i t.1
        let transformed ← setIdx transformed (i + 1) t.2
        let vars ← setIdx st.vars i (scale * t.1)
        let vars ← setIdx vars (i + 1) (scale * t.2)
        pure { st with vars := vars, transformed := transformed }
    | _ => pure st

/-- One step of `Decomposer::RecursiveAssembly`, `assemble/mod.rs:220-276`. (The iteration over the mapping writes each variable
once, its order does not matter.) -/
def solveStep (optimize : Optimize F) (s : System F) (scale : F) (exprs : List (Expr F)) (st : SolveState F)
    (step : RecombinationStep) : R (SolveState F) := do
  let (cs, values) ← ClusteredSystem.build s st.transformed step
  let values ← optimize .levenbergMarquardt (cs.problem s exprs st.transformed) values
  let transformed ← cs.mapping.foldlM (writeTransformed values) st.transformed
  let vars ← cs.mapping.foldlM (writeVars scale values) st.vars
  cs.clusters.keys.zipIdx.foldlM (fun (st : SolveState F) (ck : Nat × Nat) => do
    let pose ← poseAt values ck.2
    ((step.ownedElements.get? ck.1).getD []).foldlM (moveElement s scale cs.stepPlusFrontierElements pose) st)
    { st with vars := vars, transformed := transformed, calls := st.calls ++ [cs.expressions] }

/-- `Decomposer::RecursiveAssembly`, `assemble/mod.rs:212-277`. -/
def solveRecursive (optimize : Optimize F) (ord : HashOrder) (s : System F) (scale : F) (exprs : List (Expr F))
    (component : Nat) (comp : Component) (st : SolveState F) : R (SolveState F) := do
  let steps ← decompose 3 (fun tag => ord (component :: 1 :: tag)) s.graph.toD comp.elements comp.constraints
  steps.foldlM (solveStep optimize s scale exprs) st

/-- The perturbation of the free variables, `assemble/mod.rs:113-124`. -/
def perturbFree (opts : SolvingOptions) (free : Finset Nat) (st : SolveState F) : R (SolveState F) :=
  if opts.perturb then (ascending free).foldlM perturbVariable st else pure st

/-- The body of the loop over the components, `assemble/mod.rs:82-278`. -/
def solveComponent (optimize : Optimize F) (ord : HashOrder) (opts : SolvingOptions) (s : System F) (scale : F)
    (exprs : List (Expr F)) (st : SolveState F) (ck : Component × Nat) : R (SolveState F) := do
  if ck.1.elements = ∅ then pure st
  else
    let free ← s.freeVariables ck.1.elements
    let st ← perturbFree opts free st
    match opts.decomposer with
    | .none => solveWhole optimize opts s scale exprs ck.1.constraints free st
    | .singlePass => solveSinglePass optimize ord opts s scale exprs ck.2 free st
    | .recursiveAssembly => solveRecursive optimize ord s scale exprs ck.2 ck.1 st

/-- The loop of `solve` over the components, `assemble/mod.rs:47-279`. -/
def System.solveLoop (optimize : Optimize F) (ord : HashOrder) (opts : SolvingOptions) (s : System F) : R (SolveState F) :=
  s.graph.components.zipIdx.foldlM (solveComponent optimize ord opts s s.scale s.scaledExpressions)
    ⟨s.vars, s.scaledVariables, 42, []⟩

/-- `solve`, `assemble/mod.rs:46-280`. -/
def System.solve (optimize : Optimize F) (ord : HashOrder) (opts : SolvingOptions) (s : System F) : R (System F) := do
  let st ← s.solveLoop optimize ord opts
  pure { s with vars := st.vars }

end

end Fiksi
