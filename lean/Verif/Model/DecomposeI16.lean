import Verif.Model.Solve
/-!
# Recursive assembly with `i16` counts (`fiksi/src/analyze/graph/recursive_assembly.rs`)

Degrees of freedom and valencies are `i16` in the code (`graph.rs:100,111`). `Model/Decompose.lean` counts with unbounded integers.
Here the same functions are written with a parameter `narrow` that is applied to the result of every addition and subtraction of
`i16`s: `checkedI16` is what a build with overflow checks does, `wrappedI16` what a build without them does. Functions without such
arithmetic are those of `Model/Decompose.lean`.
-/
namespace Fiksi

/-- What happens to the exact result of an operation on `i16`s. -/
abbrev Narrow := Int → R Int

/-- With overflow checks (the `dev` profile): panic. -/
def checkedI16 : Narrow := fun x => if -32768 ≤ x ∧ x ≤ 32767 then .ok x else .error .overflow

/-- Without overflow checks (the `release` profile): two's complement. -/
def wrappedI16 : Narrow := fun x => .ok (Int.bmod x 65536)

/-- `additional_valency`, `recursive_assembly.rs:507-532`. -/
def DGraph.additionalValencyN (narrow : Narrow) (g : DGraph) (available next : Finset Nat) (vertex : Nat) : R Int := do
  let es ← g.availableAt available vertex
  es.foldlM (fun (add : Int) edgeId => do
    let edge ← idx g.constraints edgeId
    if edge.incidentElements.all (fun u => decide (u ∈ next)) then narrow (add + edge.valency) else pure add) 0

/-- The loop over the adjacent vertices of one state, `recursive_assembly.rs:606-640`. -/
def DenseEnv.expandN (narrow : Narrow) (env : DenseEnv) (st : SubgraphState) :
    List Nat → List SubgraphState → R (Finset Nat ⊕ List SubgraphState)
  | [], new => .ok (.inr new)
  | vertex :: rest, new => do
      let next := insert vertex st.subgraph
      let valency ← env.graph.additionalValencyN narrow env.available next vertex
      let element ← idx env.graph.elements vertex
      let sum ← narrow (st.dof + element.dof)
      let nextDof ← narrow (sum - valency)
      if next ∉ env.blocked ∧ nextDof > env.k then .ok (.inl next)
      else
        let adjacent ← env.graph.extendAdjacent env.available env.vertices next vertex (st.adjacent.erase vertex)
        env.expandN narrow st rest (new ++ [⟨next, nextDof, adjacent, vertex :: st.path⟩])

/-- The search loop, `recursive_assembly.rs:600-641`. -/
def DenseEnv.searchN (narrow : Narrow) (env : DenseEnv) (ord : HashOrder) (step : Nat) :
    Nat → List SubgraphState → R (Option (Finset Nat))
  | _, [] => .ok none
  | 0, _ :: _ => .error .outOfFuel
  | fuel + 1, st :: queue => do
      match ← env.expandN narrow st (ord (step :: 1 :: st.path) st.adjacent) [] with
      | .inl found => .ok (some found)
      | .inr new => env.searchN narrow ord step fuel (queue ++ new)

/-- `dense_bfs`, `recursive_assembly.rs:499-645`. -/
def DenseEnv.denseBfsN (narrow : Narrow) (env : DenseEnv) (ord : HashOrder) (step : Nat) : R (Option (Finset Nat)) := do
  let queue ← (ord [step, 0] env.vertices).mapM env.seed
  env.searchN narrow ord step (env.vertices.card * (env.vertices.card + 1) ^ env.vertices.card) queue

/-- The loop over the edges of a frontier vertex, `recursive_assembly.rs:438-462`. -/
def contractEdgesN (narrow : Narrow) (subgraph frontier : Finset Nat) (core : Nat) (edges : List Nat) (st : DState) : R (Int × DState) :=
  edges.foldlM (fun (bs : Int × DState) edgeId => do
    if edgeId ∉ bs.2.available then pure bs
    else
      let edge ← idx bs.2.graph.constraints edgeId
      if edge.incidentElements.all (fun u => decide (u ∈ subgraph)) then
        let new := mergeElements (fun u => !decide (u ∈ frontier)) core edge.incidentElements false
        if new.length = 2 then do
          let sum ← narrow (bs.1 + edge.valency)
          pure (sum, { bs.2 with available := bs.2.available.erase edgeId })
        else
          let cs ← setIdx bs.2.graph.constraints edgeId { edge with incidentElements := new }
          pure (bs.1, { bs.2 with graph := { bs.2.graph with constraints := cs } })
      else pure bs) (0, st)

/-- The body of the loop of part 2, `recursive_assembly.rs:430-472`. -/
def contractVertexN (narrow : Narrow) (subgraph frontier : Finset Nat) (core : Nat) (cs : ContractState) (vertex : Nat) :
    R ContractState := do
  let element ← idx cs.st.graph.elements vertex
  let total ← narrow (cs.totalFrontierDof + element.dof)
  let (valency, st) ← contractEdgesN narrow subgraph frontier core element.incidentConstraints cs.st
  let cs := { cs with st := st, totalFrontierDof := total }
  if valency > 0 then do
    let (id, g) ← cs.st.graph.addEdge valency vertex core
    let incoming ← narrow (cs.totalIncomingValency + valency)
    pure { cs with
      st := { cs.st with graph := g, available := insert id cs.st.available }
      totalIncomingValency := incoming }
  else pure cs

/-- The contraction, `recursive_assembly.rs:418-479`. -/
def contractN (narrow : Narrow) (d : Int) (ord : HashOrder) (step clusterKey : Nat) (subgraph frontier : Finset Nat) (core : List Nat)
    (st : DState) : R DState := do
  let coreId ← toU32 st.graph.elements.length
  let st := replaceCore clusterKey core coreId st
  let cs ← (ord [step, 4] frontier).foldlM (contractVertexN narrow subgraph frontier coreId) ⟨st, 0, 0⟩
  if cs.totalIncomingValency > 0 then do
    let element ← idx cs.st.graph.elements coreId
    let left ← narrow (cs.totalFrontierDof - cs.totalIncomingValency)
    let dof ← narrow (left - d)
    let es ← setIdx cs.st.graph.elements coreId { element with dof := dof }
    pure { cs.st with graph := { cs.st.graph with elements := es } }
  else pure { cs.st with vertices := cs.st.vertices.erase coreId }

/-- One step that found a dense subgraph, `recursive_assembly.rs:254-479`. -/
def assembleStepN (narrow : Narrow) (d : Int) (ord : HashOrder) (numRealElements numRealConstraints step : Nat) (subgraph : Finset Nat)
    (st : DState) : R DState := do
  let sc ← (ord [step, 2] subgraph).foldlM (scanVertex numRealElements numRealConstraints step subgraph) ⟨st, [], ∅, []⟩
  let st := emitStep sc.realElements sc.st
  let st := claimFixes step sc.core st
  let st ← sc.core.foldlM (mergeCore numRealElements step sc.core) st
  let st := (ord [step, 3] sc.frontier).foldl (markFrontier numRealElements step) st
  if subgraph.card - sc.frontier.card ≤ 1 then pure { st with blocked := st.blocked ++ [subgraph] }
  else contractN narrow d ord step step subgraph sc.frontier sc.core st

/-- The loop of `decompose`, `recursive_assembly.rs:205-480`. -/
def decomposeLoopN (narrow : Narrow) (d : Int) (ord : HashOrder) (numRealElements numRealConstraints : Nat) : Nat → Nat → DState →
    R (List RecombinationStep)
  | 0, _, _ => .error .outOfFuel
  | fuel + 1, step, st => do
      let env : DenseEnv := ⟨st.graph, st.blocked, st.available, st.vertices, -(d + 1)⟩
      match ← env.denseBfsN narrow ord step with
      | none => pure (lastStep ord numRealElements numRealConstraints step st).steps
      | some subgraph => do
          let st ← assembleStepN narrow d ord numRealElements numRealConstraints step subgraph st
          decomposeLoopN narrow d ord numRealElements numRealConstraints fuel (step + 1) st

/-- `decompose::<D>`, `recursive_assembly.rs:164-483`. -/
def decomposeN (narrow : Narrow) (d : Int) (ord : HashOrder) (g : DGraph) (vertices edges : Finset Nat) : R (List RecombinationStep) := do
  let numRealConstraints ← toU32 g.constraints.length
  let numRealElements ← toU32 g.elements.length
  decomposeLoopN narrow d ord numRealElements numRealConstraints (2 ^ (vertices.card + 1)) 0
    { graph := g, vertices := vertices, available := edges, constraintsHandled := ∅, verticesHandled := ∅
      onFrontiers := [], ownedElements := [], owningCluster := [], frontierElements := [], blocked := [], steps := []
      stepConstraints := [], stepFixes := [] }

section
variable {F : Type} [Add F] [Sub F] [Mul F] [Div F] [Neg F] [Zero F] [One F] [FloatOps F]

/-- `Decomposer::RecursiveAssembly`, `assemble/mod.rs:212-277`. -/
def solveRecursiveN (narrow : Narrow) (optimize : Optimize F) (ord : HashOrder) (s : System F) (scale : F) (exprs : List (Expr F))
    (component : Nat) (comp : Component) (st : SolveState F) : R (SolveState F) := do
  let steps ← decomposeN narrow 3 (fun tag => ord (component :: 1 :: tag)) s.graph.toD comp.elements comp.constraints
  steps.foldlM (solveStep optimize s scale exprs) st

/-- The body of the loop over the components, `assemble/mod.rs:82-278`. -/
def solveComponentN (narrow : Narrow) (optimize : Optimize F) (ord : HashOrder) (opts : SolvingOptions) (s : System F) (scale : F)
    (exprs : List (Expr F)) (st : SolveState F) (ck : Component × Nat) : R (SolveState F) := do
  if ck.1.elements = ∅ then pure st
  else
    let free ← s.freeVariables ck.1.elements
    let st ← perturbFree opts free st
    match opts.decomposer with
    | .none => solveWhole optimize opts s scale exprs ck.1.constraints free st
    | .singlePass => solveSinglePass optimize ord opts s scale exprs ck.2 free st
    | .recursiveAssembly => solveRecursiveN narrow optimize ord s scale exprs ck.2 ck.1 st

/-- The loop of `solve` over the components, `assemble/mod.rs:47-279`. -/
def System.solveLoopN (narrow : Narrow) (optimize : Optimize F) (ord : HashOrder) (opts : SolvingOptions) (s : System F) :
    R (SolveState F) :=
  s.graph.components.zipIdx.foldlM (solveComponentN narrow optimize ord opts s s.scale s.scaledExpressions)
    ⟨s.vars, s.scaledVariables, 42, []⟩

/-- `solve`, `assemble/mod.rs:46-280`, with `i16` counts. -/
def System.solveN (narrow : Narrow) (optimize : Optimize F) (ord : HashOrder) (opts : SolvingOptions) (s : System F) : R (System F) := do
  let st ← s.solveLoopN narrow optimize ord opts
  pure { s with vars := st.vars }

end

end Fiksi
