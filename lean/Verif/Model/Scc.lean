import Verif.Model.Matching
/-!
# Strongly connected components and SinglePass plans (`fiksi/src/analyze/graph/equations.rs:16-28`, `181-220`, `406-568`)
-/
namespace Fiksi

/-- `VertexGraph`, `equations.rs:16-28`. -/
structure VertexGraph where
  vertices : List Nat
  neighbors : Nat → Option (List Nat)

/-- The variables shared by the recursive calls of `visit`, `equations.rs:475-482`. The stack has its top at the head of the list. -/
structure SccState where
  index : Nat
  c : Nat
  rootIndex : IMap Nat Nat
  stack : List Nat
  sccs : List (List Nat)

/-- `*index -= 1` on `u32` (overflow checks panic). -/
def checkedPred (n : Nat) : R Nat := if n = 0 then .error .conversion else .ok (n - 1)

/-- `c.wrapping_sub(1)` on `u32`. -/
def wrappingPred (n : Nat) : Nat := if n = 0 then u32Max else n - 1

/-- The test at the head of the loop, `equations.rs:523-525`: a neighbour is visited unless it has a root index. -/
def ensureVisited (recurse : Nat → SccState → R SccState) (w : Nat) (st : SccState) : R SccState :=
  match st.rootIndex.get? w with
  | none => recurse w st
  | some _ => .ok st

/-- The loop over the neighbours, `equations.rs:522-533`, with the recursive call as a parameter. The pair is
`(root, vertex_index)`. -/
def visitLoop (recurse : Nat → SccState → R SccState) (vertex : Nat) : List Nat → Bool × Nat → SccState → R ((Bool × Nat) × SccState)
  | [], rv, st => .ok (rv, st)
  | w :: ws, (root, vertexIndex), st => do
      let st ← ensureVisited recurse w st
      let neighborIndex ← unwrap (st.rootIndex.get? w)
      if neighborIndex < vertexIndex then
        visitLoop recurse vertex ws (false, neighborIndex) { st with rootIndex := st.rootIndex.insert vertex neighborIndex }
      else visitLoop recurse vertex ws (root, vertexIndex) st

/-- The loop that pops a component off the stack, `equations.rs:540-551`. State: index, root indices, members popped so far. -/
def popLoop (vertexIndex c : Nat) : List Nat → Nat → IMap Nat Nat → List Nat → R (List Nat × Nat × IMap Nat Nat × List Nat)
  | [], index, rootIndex, scc => .ok ([], index, rootIndex, scc)
  | top :: stack, index, rootIndex, scc => do
      let t ← unwrap (rootIndex.get? top)
      if vertexIndex > t then .ok (top :: stack, index, rootIndex, scc)
      else
        let index ← checkedPred index
        popLoop vertexIndex c stack index (rootIndex.insert top c) (scc ++ [top])

/-- `visit`, `equations.rs:508-567`. The fuel bounds the recursion depth. (`debug_assert!`s are not modelled.) -/
def visit (g : VertexGraph) : Nat → Nat → SccState → R SccState
  | 0, _, _ => .error .outOfFuel
  | fuel + 1, vertex, st => do
      let next ← toU32 (st.index + 1)
      let neighbors ← unwrap (g.neighbors vertex)
      let ((root, vertexIndex), st) ← visitLoop (visit g fuel) vertex neighbors (true, st.index)
        { st with rootIndex := st.rootIndex.insert vertex st.index, index := next }
      if root then
        let index ← checkedPred st.index
        let (stack, index, rootIndex, scc) ← popLoop vertexIndex st.c st.stack index st.rootIndex [vertex]
        pure { index := index, c := wrappingPred st.c, rootIndex := rootIndex.insert vertex st.c, stack := stack,
               sccs := st.sccs ++ [scc] }
      else pure { st with stack := vertex :: st.stack }

/-- One iteration of the loop of `tarjan_pearce`, `equations.rs:484-496`. -/
def visitUnseen (g : VertexGraph) (st : SccState) (vertex : Nat) : R SccState :=
  ensureVisited (visit g (g.vertices.length + 1)) vertex st

/-- `tarjan_pearce`, `equations.rs:470-506`. -/
def tarjanPearce (g : VertexGraph) : R (List (List Nat)) := do
  let n ← toU32 g.vertices.length
  let st ← g.vertices.foldlM (visitUnseen g) { index := 1, c := wrappingPred n, rootIndex := [], stack := [], sccs := [] }
  pure st.sccs

/-- `<MaskedExpressionGraph as BipartiteGraphBToA>::neighbors_of_b`, `equations.rs:271-285`. -/
def neighborsOfB (g : ExprGraph) (free : Finset Nat) (e : Nat) : Option (List Nat) :=
  g.expressions[e]?.map (fun vs => vs.filter (fun v => decide (v ∈ free)))

/-- `MatchedBipartiteGraph` as a `VertexGraph`, `equations.rs:422-448`. The two `unwrap`s of `neighbors` (`equations.rs:439`,
`444`) are `none` here, which the caller unwraps. -/
def matchedGraph (g : ExprGraph) (free : Finset Nat) (m : Matching) : VertexGraph :=
  { vertices := m.bToA.keys
    neighbors := fun vertex => do
      let matchedA ← m.bToA.get? vertex
      let vs ← neighborsOfB g free vertex
      let ls ← (vs.filter (fun a => a == matchedA || !m.aToB.contains a)).mapM (fun a => (maskedGraph g free).neighborsOfA a)
      pure (ls.flatten.filter (fun b => b != vertex && m.bToA.contains b)) }

/-- `StronglyConnectedExpressions`, `equations.rs:154-157`. The free variables are collected through a `HashSet`, in an
unspecified order: a `Finset`. -/
structure Block where
  freeVariables : Finset Nat
  expressions : List Nat

/-- The body of the `map` of `find_strongly_connected_expressions`, `equations.rs:201-218`. -/
def sccBlock (g : ExprGraph) (free : Finset Nat) (m : Matching) (expressions : List Nat) : R Block := do
  let vs ← expressions.foldlM (fun (acc : Finset Nat) e => do
    let matchedVar ← unwrap (m.bToA.get? e)
    let vars ← idx g.expressions e
    pure (acc ∪ (vars.filter (fun v => v == matchedVar || (!m.aToB.contains v && decide (v ∈ free)))).toFinset)) ∅
  pure ⟨vs, expressions⟩

/-- `ExpressionGraph::find_strongly_connected_expressions`, `equations.rs:186-220`. (The iterator is lazy; nothing it reads is
changed while it is consumed.) -/
def ExprGraph.findStronglyConnectedExpressions (g : ExprGraph) (free : Finset Nat) : R (List Block) := do
  let m ← findMaximumMatching (maskedGraph g free)
  let sccs ← tarjanPearce (matchedGraph g free m)
  sccs.reverse.mapM (sccBlock g free m)

end Fiksi
