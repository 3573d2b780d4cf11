import Verif.Model.IndexMap
import Verif.Model.ExprGraph
/-!
# Maximum matching (`fiksi/src/analyze/graph/equations.rs:85-144`, `222-404`)
-/
namespace Fiksi

/-- `BipartiteGraphAToB`, `equations.rs:60-71`: the vertices of set A and the neighbours of each. -/
structure AToB where
  verticesA : List Nat
  neighborsOfA : Nat → Option (List Nat)

/-- `Matching`, `equations.rs:97-103`. -/
structure Matching where
  aToB : IMap Nat Nat
  bToA : IMap Nat Nat

/-- `Matching::new`, `equations.rs:106-111`. -/
def Matching.new : Matching := ⟨[], []⟩

/-- The pair of insertions that matches `a` with `b`, `equations.rs:385-386` and `395-396`. -/
def Matching.link (m : Matching) (a b : Nat) : Matching := ⟨m.aToB.insert a b, m.bToA.insert b a⟩

/-- State of `bfs`, `equations.rs:331-344`. -/
structure BfsState where
  queue : List Nat
  distance : IMap Nat Nat
  dummy : Nat

/-- The initialisation loop of `bfs`, `equations.rs:333-340`: `iter_mut` over the distances, in order. -/
def bfsInit (m : Matching) (distance : IMap Nat Nat) : BfsState :=
  { queue := (distance.filter (fun p => !m.aToB.contains p.1)).map (·.1)
    distance := distance.map (fun p => if m.aToB.contains p.1 then (p.1, u32Max) else (p.1, 0))
    dummy := u32Max }

/-- One iteration of the inner loop of `bfs`, `equations.rs:352-365`. -/
def bfsVisit (m : Matching) (newDist : Nat) (st : BfsState) (b : Nat) : R BfsState :=
  match m.bToA.get? b with
  | none => if st.dummy = u32Max then .ok { st with dummy := newDist } else .ok st
  | some matchedA => do
      let d ← unwrap (st.distance.get? matchedA)
      if d = u32Max then
        .ok { st with distance := st.distance.insert matchedA newDist, queue := st.queue ++ [matchedA] }
      else .ok st

/-- The `while` loop of `bfs`, `equations.rs:343-366`. -/
def bfsLoop (g : AToB) (m : Matching) : Nat → BfsState → R BfsState
  | 0, _ => .error .outOfFuel
  | fuel + 1, st =>
      match st.queue with
      | [] => .ok st
      | a :: queue => do
          let aDistance ← unwrap (st.distance.get? a)
          if aDistance ≥ st.dummy then bfsLoop g m fuel { st with queue := queue }
          else
            let neighbors ← unwrap (g.neighborsOfA a)
            let st ← neighbors.foldlM (bfsVisit m (saturatingSucc aDistance)) { st with queue := queue }
            bfsLoop g m fuel st

/-- `bfs`, `equations.rs:325-369`: new distances and the distance of the dummy vertex; the returned flag is
`dummy ≠ u32::MAX`. The queue takes every vertex of A at most once, which bounds the number of iterations. -/
def bfs (g : AToB) (m : Matching) (distance : IMap Nat Nat) : R BfsState :=
  bfsLoop g m (g.verticesA.length + 1) (bfsInit m distance)

/-- The loop of `dfs`, `equations.rs:380-402`, with the recursive call as a parameter. -/
def dfsLoop (recurse : Nat → Matching × IMap Nat Nat → R (Bool × Matching × IMap Nat Nat)) (dummy a aDistancePlusOne : Nat) :
    List Nat → Matching × IMap Nat Nat → R (Bool × Matching × IMap Nat Nat)
  | [], (m, distance) => .ok (false, m, distance.insert a u32Max)
  | b :: bs, (m, distance) =>
      match m.bToA.get? b with
      | none =>
          if dummy = aDistancePlusOne then .ok (true, m.link a b, distance)
          else dfsLoop recurse dummy a aDistancePlusOne bs (m, distance)
      | some matchedA => do
          let d ← unwrap (distance.get? matchedA)
          if d = aDistancePlusOne then
            let (found, m, distance) ← recurse matchedA (m, distance)
            if found then .ok (true, m.link a b, distance)
            else dfsLoop recurse dummy a aDistancePlusOne bs (m, distance)
          else dfsLoop recurse dummy a aDistancePlusOne bs (m, distance)

/-- `dfs`, `equations.rs:371-403`. The fuel bounds the recursion depth. -/
def dfs (g : AToB) (dummy : Nat) : Nat → Nat → Matching × IMap Nat Nat → R (Bool × Matching × IMap Nat Nat)
  | 0, _, _ => .error .outOfFuel
  | fuel + 1, a, (m, distance) => do
      let d ← unwrap (distance.get? a)
      let neighbors ← unwrap (g.neighborsOfA a)
      dfsLoop (dfs g dummy fuel) dummy a (saturatingSucc d) neighbors (m, distance)

/-- One iteration of the `for` loop of `find_maximum_matching`, `equations.rs:315-319`. -/
def matchVertex (g : AToB) (dummy : Nat) (st : Matching × IMap Nat Nat) (a : Nat) : R (Matching × IMap Nat Nat) :=
  if st.1.aToB.contains a then .ok st
  else do
    let (_, st) ← dfs g dummy (g.verticesA.length + 1) a st
    pure st

/-- The `while` loop of `find_maximum_matching`, `equations.rs:314-320`. -/
def matchingLoop (g : AToB) : Nat → Matching × IMap Nat Nat → R Matching
  | 0, _ => .error .outOfFuel
  | fuel + 1, (m, distance) => do
      let b ← bfs g m distance
      if b.dummy ≠ u32Max then
        let st ← g.verticesA.foldlM (matchVertex g b.dummy) (m, b.distance)
        matchingLoop g fuel st
      else pure m

/-- `hopcroft_karp::find_maximum_matching`, `equations.rs:301-323`. Each phase adds an edge, which bounds the number of phases. -/
def findMaximumMatching (g : AToB) : R Matching :=
  matchingLoop g (g.verticesA.length + 1) (Matching.new, g.verticesA.foldl (fun d a => d.insert a u32Max) [])

/-- `MaskedExpressionGraph` as a graph from variables to expressions, `equations.rs:227-254`. -/
def maskedGraph (g : ExprGraph) (free : Finset Nat) : AToB :=
  { verticesA := ascending free
    neighborsOfA := fun v => g.vars[v]? }

end Fiksi
