import Verif.Model.Graph
import Verif.Model.IndexMap
/-!
# Recursive assembly (`fiksi/src/analyze/graph/recursive_assembly.rs`)

`HashSet`s are `Finset`s. Where the code iterates over a `HashSet`, the order is unspecified: the model asks an arbitrary function
`ord` for it. Every iteration passes its own tag to `ord` (the number of the step, the place in the code, and for the breadth-first
search the path by which the subgraph was built), so that two iterations may use unrelated orders.
`HashMap`s are only accessed by key.

Simplifications: `i16` degrees of freedom and valencies are unbounded integers (with `i16`: `Model/DecomposeI16.lean`); `Graph::add_constraint` on the cloned graph
(`recursive_assembly.rs:465`) also updates the connected components of the clone, which nothing reads afterwards: not modelled.
-/
namespace Fiksi

/-- An arbitrary iteration order for each iteration over a hash set. -/
abbrev HashOrder := List Nat → Finset Nat → List Nat

/-- `ord` lists the members of the set, each once. -/
def HashOrder.Ok (ord : HashOrder) : Prop := ∀ tag s, (ord tag s).Nodup ∧ ∀ x, x ∈ ord tag s ↔ x ∈ s

/-- `HashMap::remove`. -/
def IMap.erase {κ α : Type} [DecidableEq κ] (m : IMap κ α) (k : κ) : IMap κ α := m.filter (fun p => p.1 != k)

/-- `graph::Element` with signed degrees of freedom, `graph.rs:98-104`. -/
structure DElement where
  dof : Int
  incidentConstraints : List Nat

/-- `graph::Constraint`, `graph.rs:108-115`. -/
structure DConstraint where
  valency : Int
  incidentElements : List Nat

/-- The parts of the cloned `Graph` used by `decompose`. -/
structure DGraph where
  elements : List DElement
  constraints : List DConstraint

/-- `system.graph.clone()`, `assemble/mod.rs:214`. -/
def Graph.toD (g : Graph) : DGraph :=
  ⟨g.elements.map (fun e => ⟨e.dof, e.incidentConstraints⟩), g.constraints.map (fun c => ⟨c.valency, c.incidentElements⟩)⟩

/-- `IncidentElements::merge_elements`, `graph.rs:62-93`. State: elements so far, whether a merged element was written. -/
def mergeElements (merge : Nat → Bool) (into : Nat) : List Nat → Bool → List Nat
  | [], _ => []
  | e :: es, merged =>
      if merge e then
        if merged then mergeElements merge into es merged else into :: mergeElements merge into es true
      else e :: mergeElements merge into es merged

/-- `RecombinationStep`, `recursive_assembly.rs:76-118`. -/
structure RecombinationStep where
  constraints : List Nat
  elements : List Nat
  freeElements : List Nat
  onFrontiers : IMap Nat (List Nat)
  ownedElements : IMap Nat (List Nat)
  frontierElements : IMap Nat (List Nat)

/-! ## `dense_bfs`, `recursive_assembly.rs:499-645` -/

/-- The constraints of an element that are available (`.filter(|e| available_edges.contains(e))`). -/
def DGraph.availableAt (g : DGraph) (available : Finset Nat) (vertex : Nat) : R (List Nat) := do
  let element ← idx g.elements vertex
  pure (element.incidentConstraints.filter (fun e => decide (e ∈ available)))

/-- `additional_valency`, `recursive_assembly.rs:507-532`. -/
def DGraph.additionalValency (g : DGraph) (available next : Finset Nat) (vertex : Nat) : R Int := do
  let es ← g.availableAt available vertex
  es.foldlM (fun (add : Int) edgeId => do
    let edge ← idx g.constraints edgeId
    pure (if edge.incidentElements.all (fun u => decide (u ∈ next)) then add + edge.valency else add)) 0

/-- `extend_adjacent_vertices`, `recursive_assembly.rs:534-557`. -/
def DGraph.extendAdjacent (g : DGraph) (available vertices subgraph : Finset Nat) (vertex : Nat) (adjacent : Finset Nat) :
    R (Finset Nat) := do
  let es ← g.availableAt available vertex
  es.foldlM (fun (adjacent : Finset Nat) edgeId => do
    let edge ← idx g.constraints edgeId
    pure (adjacent ∪ (edge.incidentElements.filter (fun u => decide (u ∈ vertices) && !decide (u ∈ subgraph))).toFinset)) adjacent

/-- `SubgraphState`, `recursive_assembly.rs:559-574`, with the path by which it was built (only for the tags of `ord`). -/
structure SubgraphState where
  subgraph : Finset Nat
  dof : Int
  adjacent : Finset Nat
  path : List Nat

/-- The environment of the search. -/
structure DenseEnv where
  graph : DGraph
  blocked : List (Finset Nat)
  available : Finset Nat
  vertices : Finset Nat
  k : Int

/-- The seeds, `recursive_assembly.rs:578-598`. -/
def DenseEnv.seed (env : DenseEnv) (vertex : Nat) : R SubgraphState := do
  let adjacent ← env.graph.extendAdjacent env.available env.vertices {vertex} vertex ∅
  let element ← idx env.graph.elements vertex
  pure ⟨{vertex}, element.dof, adjacent, [vertex]⟩

/-- The loop over the adjacent vertices of one state, `recursive_assembly.rs:606-640`: a dense subgraph, or the new states. -/
def DenseEnv.expand (env : DenseEnv) (st : SubgraphState) : List Nat → List SubgraphState → R (Finset Nat ⊕ List SubgraphState)
  | [], new => .ok (.inr new)
  | vertex :: rest, new => do
      let next := insert vertex st.subgraph
      let valency ← env.graph.additionalValency env.available next vertex
      let element ← idx env.graph.elements vertex
      let nextDof := st.dof + element.dof - valency
      if next ∉ env.blocked ∧ nextDof > env.k then .ok (.inl next)
      else
        let adjacent ← env.graph.extendAdjacent env.available env.vertices next vertex (st.adjacent.erase vertex)
        env.expand st rest (new ++ [⟨next, nextDof, adjacent, vertex :: st.path⟩])

/-- The search loop, `recursive_assembly.rs:600-641`. -/
def DenseEnv.search (env : DenseEnv) (ord : HashOrder) (step : Nat) : Nat → List SubgraphState → R (Option (Finset Nat))
  | _, [] => .ok none
  | 0, _ :: _ => .error .outOfFuel
  | fuel + 1, st :: queue => do
      match ← env.expand st (ord (step :: 1 :: st.path) st.adjacent) [] with
      | .inl found => .ok (some found)
      | .inr new => env.search ord step fuel (queue ++ new)

/-- `dense_bfs`, `recursive_assembly.rs:499-645`. -/
def DenseEnv.denseBfs (env : DenseEnv) (ord : HashOrder) (step : Nat) : R (Option (Finset Nat)) := do
  let queue ← (ord [step, 0] env.vertices).mapM env.seed
  env.search ord step (env.vertices.card * (env.vertices.card + 1) ^ env.vertices.card) queue

/-! ## `decompose`, `recursive_assembly.rs:164-483` -/

/-- The variables of `decompose` that live across steps, `recursive_assembly.rs:179-204`. -/
structure DState where
  graph : DGraph
  vertices : Finset Nat
  available : Finset Nat
  constraintsHandled : Finset Nat
  verticesHandled : Finset Nat
  onFrontiers : IMap Nat (List Nat)
  ownedElements : IMap Nat (List Nat)
  owningCluster : IMap Nat Nat
  frontierElements : IMap Nat (List Nat)
  blocked : List (Finset Nat)
  steps : List RecombinationStep
  stepConstraints : List Nat
  stepFixes : List Nat

/-- Variables of one step, `recursive_assembly.rs:264-267`. -/
structure ScanState where
  st : DState
  core : List Nat
  frontier : Finset Nat
  realElements : List Nat

/-- The loop over the edges of a vertex of the subgraph, `recursive_assembly.rs:283-303`. Returns whether the vertex is on the
frontier. -/
def scanEdges (numRealConstraints : Nat) (subgraph : Finset Nat) (edges : List Nat) (st : DState) : R (Bool × DState) :=
  edges.foldlM (fun (bs : Bool × DState) edgeId => do
    let edge ← idx bs.2.graph.constraints edgeId
    if edge.incidentElements.all (fun u => decide (u ∈ subgraph)) then
      if edgeId < numRealConstraints ∧ edgeId ∉ bs.2.constraintsHandled then
        pure (bs.1, { bs.2 with
          stepConstraints := bs.2.stepConstraints ++ [edgeId]
          constraintsHandled := insert edgeId bs.2.constraintsHandled })
      else pure bs
    else pure (true, bs.2)) (false, st)

/-- First visit of a vertex, `recursive_assembly.rs:276-281`. -/
def noteVertex (numRealElements clusterKey : Nat) (st : DState) (vertex : Nat) : DState :=
  if vertex < numRealElements ∧ vertex ∉ st.verticesHandled then
    { st with
      stepFixes := st.stepFixes ++ [vertex]
      verticesHandled := insert vertex st.verticesHandled
      owningCluster := st.owningCluster.insert vertex clusterKey }
  else st

/-- The loop over the vertices of the subgraph, `recursive_assembly.rs:269-310`. -/
def scanVertex (numRealElements numRealConstraints clusterKey : Nat) (subgraph : Finset Nat) (sc : ScanState) (vertex : Nat) :
    R ScanState := do
  let st := noteVertex numRealElements clusterKey sc.st vertex
  let edges ← st.graph.availableAt st.available vertex
  let (isFrontier, st) ← scanEdges numRealConstraints subgraph edges st
  let realElements := if vertex < numRealElements then sc.realElements ++ [vertex] else sc.realElements
  if isFrontier then pure ⟨st, sc.core, insert vertex sc.frontier, realElements⟩
  else pure ⟨st, sc.core ++ [vertex], sc.frontier, realElements⟩

/-- `on_frontiers.swap_remove(idx)` of the position of the old cluster, `recursive_assembly.rs:374-379`. -/
def swapRemoveKey (l : List Nat) (key : Nat) : R (List Nat) :=
  match l.idxOf? key with
  | none => .error .unwrapNone
  | some i =>
      match l.getLast? with
      | none => .error .unwrapNone
      | some last => .ok ((l.set i last).dropLast)

/-- The body of the loop over the core, `recursive_assembly.rs:339-385`. -/
def mergeCore (numRealElements clusterKey : Nat) (core : List Nat) (st : DState) (vertex : Nat) : R DState := do
  let st ← (if vertex < numRealElements then do
      let element ← idx st.graph.elements vertex
      let available ← element.incidentConstraints.foldlM (fun (av : Finset Nat) edgeId => do
        let constraint ← idx st.graph.constraints edgeId
        pure (if constraint.incidentElements.all (fun u => core.contains u) then av.erase edgeId else av)) st.available
      pure { st with available := available }
    else pure st : R DState)
  let oldKey ← unwrap (st.owningCluster.get? vertex)
  let st := { st with owningCluster := st.owningCluster.insert vertex clusterKey }
  let st ← (if oldKey ≠ clusterKey then do
      let oldOwned ← unwrap (st.ownedElements.get? oldKey)
      let owned := st.ownedElements.erase oldKey
      let owning := oldOwned.foldl (fun (m : IMap Nat Nat) v => m.insert v clusterKey) st.owningCluster
      let mine ← unwrap (owned.get? clusterKey)
      let owned := owned.insert clusterKey (mine ++ oldOwned)
      let frontier ← unwrap (st.frontierElements.get? oldKey)
      let onFrontiers ← frontier.foldlM (fun (m : IMap Nat (List Nat)) element =>
        match m.get? element with
        | none => (.ok m : R (IMap Nat (List Nat)))
        | some l => do pure (m.insert element (← swapRemoveKey l oldKey))) st.onFrontiers
      pure { st with
        owningCluster := owning, ownedElements := owned, frontierElements := st.frontierElements.erase oldKey
        onFrontiers := onFrontiers }
    else pure st : R DState)
  pure { st with onFrontiers := st.onFrontiers.erase vertex }

/-- `map.entry(key).or_default().push(value)`. -/
def IMap.pushEntry (m : IMap Nat (List Nat)) (k v : Nat) : IMap Nat (List Nat) := m.insert k ((m.get? k).getD [] ++ [v])

/-- The body of the loop over the frontier, `recursive_assembly.rs:386-395`. -/
def markFrontier (numRealElements clusterKey : Nat) (st : DState) (vertex : Nat) : DState :=
  { st with
    onFrontiers := st.onFrontiers.pushEntry vertex clusterKey
    frontierElements := if vertex < numRealElements then st.frontierElements.pushEntry clusterKey vertex
      else st.frontierElements }

/-- Variables of the second part of the contraction, `recursive_assembly.rs:428-429`. -/
structure ContractState where
  st : DState
  totalFrontierDof : Int
  totalIncomingValency : Int

/-- The loop over the edges of a frontier vertex, `recursive_assembly.rs:438-462`. -/
def contractEdges (subgraph frontier : Finset Nat) (core : Nat) (edges : List Nat) (st : DState) : R (Int × DState) :=
  edges.foldlM (fun (bs : Int × DState) edgeId => do
    if edgeId ∉ bs.2.available then pure bs
    else
      let edge ← idx bs.2.graph.constraints edgeId
      if edge.incidentElements.all (fun u => decide (u ∈ subgraph)) then
        let new := mergeElements (fun u => !decide (u ∈ frontier)) core edge.incidentElements false
        if new.length = 2 then
          pure (bs.1 + edge.valency, { bs.2 with available := bs.2.available.erase edgeId })
        else
          let cs ← setIdx bs.2.graph.constraints edgeId { edge with incidentElements := new }
          pure (bs.1, { bs.2 with graph := { bs.2.graph with constraints := cs } })
      else pure bs) (0, st)

/-- `graph.add_constraint(valency, [vertex, core])`, `graph.rs:235-254`. -/
def DGraph.addEdge (g : DGraph) (valency : Int) (a b : Nat) : R (Nat × DGraph) := do
  let id ← toU32 g.constraints.length
  let ea ← idx g.elements a
  let es ← setIdx g.elements a { ea with incidentConstraints := ea.incidentConstraints ++ [id] }
  let eb ← idx es b
  let es ← setIdx es b { eb with incidentConstraints := eb.incidentConstraints ++ [id] }
  pure (id, ⟨es, g.constraints ++ [⟨valency, [a, b]⟩]⟩)

/-- The body of the loop of part 2, `recursive_assembly.rs:430-472`. (The code iterates over the element's edges while changing
other parts of the graph; the list iterated over does not change until the `add_constraint` after the loop.) -/
def contractVertex (subgraph frontier : Finset Nat) (core : Nat) (cs : ContractState) (vertex : Nat) : R ContractState := do
  let element ← idx cs.st.graph.elements vertex
  let (valency, st) ← contractEdges subgraph frontier core element.incidentConstraints cs.st
  let cs := { cs with st := st, totalFrontierDof := cs.totalFrontierDof + element.dof }
  if valency > 0 then do
    let (id, g) ← cs.st.graph.addEdge valency vertex core
    pure { cs with
      st := { cs.st with graph := g, available := insert id cs.st.available }
      totalIncomingValency := cs.totalIncomingValency + valency }
  else pure cs

/-- Part 1 of the contraction: the vertices of the core are replaced by a new vertex, `recursive_assembly.rs:420-426`
(`Graph::add_element`, `graph.rs:155-171`). -/
def replaceCore (clusterKey : Nat) (core : List Nat) (coreId : Nat) (st : DState) : DState :=
  { st with
    graph := { st.graph with elements := st.graph.elements ++ [⟨0, []⟩] }
    owningCluster := st.owningCluster.insert coreId clusterKey
    vertices := insert coreId (st.vertices \ core.toFinset) }

/-- The contraction, `recursive_assembly.rs:418-479`. -/
def contract (d : Int) (ord : HashOrder) (step clusterKey : Nat) (subgraph frontier : Finset Nat) (core : List Nat) (st : DState) :
    R DState := do
  let coreId ← toU32 st.graph.elements.length
  let st := replaceCore clusterKey core coreId st
  let cs ← (ord [step, 4] frontier).foldlM (contractVertex subgraph frontier coreId) ⟨st, 0, 0⟩
  if cs.totalIncomingValency > 0 then do
    let element ← idx cs.st.graph.elements coreId
    let es ← setIdx cs.st.graph.elements coreId
      { element with dof := cs.totalFrontierDof - cs.totalIncomingValency - d }
    pure { cs.st with graph := { cs.st.graph with elements := es } }
  else pure { cs.st with vertices := cs.st.vertices.erase coreId }

/-- The last step, `recursive_assembly.rs:211-252`. -/
def lastStep (ord : HashOrder) (numRealElements numRealConstraints step : Nat) (st : DState) : DState :=
  let constraints := (ord [step, 5] st.available).filter
    (fun e => decide (e < numRealConstraints) && !decide (e ∈ st.constraintsHandled))
  if constraints.isEmpty then st
  else
    { st with steps := st.steps ++ [{
        constraints := constraints
        elements := (ord [step, 6] st.vertices).filter (fun v => decide (v < numRealElements))
        freeElements := (ord [step, 7] st.vertices).filter
          (fun v => decide (v < numRealElements) && !decide (v ∈ st.verticesHandled))
        onFrontiers := st.onFrontiers
        ownedElements := st.ownedElements
        frontierElements := st.frontierElements }] }

/-- Emit a step if there are constraints to solve, `recursive_assembly.rs:312-322`. -/
def emitStep (realElements : List Nat) (st : DState) : DState :=
  if st.stepConstraints.isEmpty then st
  else
    { st with
      steps := st.steps ++ [{
        constraints := st.stepConstraints
        elements := realElements
        freeElements := st.stepFixes
        onFrontiers := st.onFrontiers
        ownedElements := st.ownedElements
        frontierElements := st.frontierElements }]
      stepConstraints := [] }

/-- The new cluster owns the elements seen for the first time, `recursive_assembly.rs:324-336`. -/
def claimFixes (clusterKey : Nat) (core : List Nat) (st : DState) : DState :=
  if core.isEmpty && st.stepFixes.isEmpty then st
  else { st with ownedElements := st.ownedElements.insert clusterKey st.stepFixes, stepFixes := [] }

/-- One step that found a dense subgraph, `recursive_assembly.rs:254-479`. -/
def assembleStep (d : Int) (ord : HashOrder) (numRealElements numRealConstraints step : Nat) (subgraph : Finset Nat) (st : DState) :
    R DState := do
  let sc ← (ord [step, 2] subgraph).foldlM (scanVertex numRealElements numRealConstraints step subgraph) ⟨st, [], ∅, []⟩
  let st := emitStep sc.realElements sc.st
  let st := claimFixes step sc.core st
  let st ← sc.core.foldlM (mergeCore numRealElements step sc.core) st
  let st := (ord [step, 3] sc.frontier).foldl (markFrontier numRealElements step) st
  if subgraph.card - sc.frontier.card ≤ 1 then pure { st with blocked := st.blocked ++ [subgraph] }
  else contract d ord step step subgraph sc.frontier sc.core st

/-- The loop of `decompose`, `recursive_assembly.rs:205-480`. (`for step in 0_u32..`: the number of the step is also bounded by
`u32`; `decompose_terminates` bounds it independently.) -/
def decomposeLoop (d : Int) (ord : HashOrder) (numRealElements numRealConstraints : Nat) : Nat → Nat → DState →
    R (List RecombinationStep)
  | 0, _, _ => .error .outOfFuel
  | fuel + 1, step, st => do
      let env : DenseEnv := ⟨st.graph, st.blocked, st.available, st.vertices, -(d + 1)⟩
      match ← env.denseBfs ord step with
      | none => pure (lastStep ord numRealElements numRealConstraints step st).steps
      | some subgraph => do
          let st ← assembleStep d ord numRealElements numRealConstraints step subgraph st
          decomposeLoop d ord numRealElements numRealConstraints fuel (step + 1) st

/-- `decompose::<D>`, `recursive_assembly.rs:164-483`. -/
def decompose (d : Int) (ord : HashOrder) (g : DGraph) (vertices edges : Finset Nat) : R (List RecombinationStep) := do
  let numRealConstraints ← toU32 g.constraints.length
  let numRealElements ← toU32 g.elements.length
  decomposeLoop d ord numRealElements numRealConstraints (2 ^ (vertices.card + 1)) 0
    { graph := g, vertices := vertices, available := edges, constraintsHandled := ∅, verticesHandled := ∅
      onFrontiers := [], ownedElements := [], owningCluster := [], frontierElements := [], blocked := [], steps := []
      stepConstraints := [], stepFixes := [] }

end Fiksi
