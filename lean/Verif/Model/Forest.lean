import Verif.Model.Slices
/-!
# Rooted forests (`solvi/src/utils.rs`)

A forest is given by the parents; `usize::MAX` (no parent) is `none`.
-/
namespace Fiksi

/-- An iteration of the loop that builds the child lists, `utils.rs:55-63`. State: `head` and `next`. -/
def linkChild (parents : List (Option Nat)) (st : List (Option Nat) × List (Option Nat)) (node : Nat) :
    R (List (Option Nat) × List (Option Nat)) := do
  match ← idx parents node with
  | none => pure st
  | some parent => do
      let first ← idx st.1 parent
      let next ← setIdx st.2 node first
      let head ← setIdx st.1 parent (some node)
      pure (head, next)

/-- `dfs_from`, `utils.rs:71-104`: the new `head` and `post`. An iteration is either an iteration of the inner loop (descending to a child)
or one of the outer loop (emitting the node and going back); the first argument bounds their number. The stack's top is its head. -/
def dfsFrom (next : List (Option Nat)) : Nat → Nat → List (Option Nat) → List Nat → List Nat → R (List (Option Nat) × List Nat)
  | 0, _, _, _, _ => .error .outOfFuel
  | fuel + 1, node, head, post, stack => do
      match ← idx head node with
      | some child => do
          let sibling ← idx next child
          let head ← setIdx head node sibling
          dfsFrom next fuel child head post (node :: stack)
      | none =>
          match stack with
          | [] => pure (head, post ++ [node])
          | parent :: stack => dfsFrom next fuel parent head (post ++ [node]) stack

/-- An iteration of the loop over the roots, `utils.rs:107-111`. State: `head` and `post`. -/
def dfsRoot (next : List (Option Nat)) (n : Nat) (st : List (Option Nat) × List Nat) (p : Option Nat × Nat) : R (List (Option Nat) × List Nat) :=
  match p.1 with
  | none => dfsFrom next (2 * n + 1) p.2 st.1 st.2 []
  | some _ => .ok st

/-- `post_order`, `utils.rs:49-117` (without the `debug_assert!`). -/
def postOrder (parents : List (Option Nat)) : R (List Nat) := do
  let n := parents.length
  let (head, next) ← (List.range n).foldlM (linkChild parents) (List.replicate n none, List.replicate n none)
  let (_, post) ← parents.zipIdx.foldlM (dfsRoot next n) (head, [])
  pure post

/-- The walk to an ancestor whose level is known, `utils.rs:163-170`: the ancestor and the path (its head is its top). -/
def walkUp (parents : List (Option Nat)) (levels : List Nat) : Nat → Nat → List Nat → R (Nat × List Nat)
  | 0, _, _ => .error .outOfFuel
  | fuel + 1, node, path => do
      let level ← idx levels node
      match level, ← idx parents node with
      | 0, some parent => walkUp parents levels fuel parent (node :: path)
      | _, _ => pure (node, path)

/-- The walk back, `utils.rs:179-184`. State: the level, the levels and the maximum. -/
def walkBack (st : Nat × List Nat × Nat) (v : Nat) : R (Nat × List Nat × Nat) := do
  let level := st.1 + 1
  let levels ← setIdx st.2.1 v level
  pure (level, levels, max st.2.2 level)

/-- An iteration of the loop of `node_depth_levels`, `utils.rs:162-185`. State: the levels and the maximum. -/
def levelStep (parents : List (Option Nat)) (st : List Nat × Nat) (node : Nat) : R (List Nat × Nat) := do
  let (node, path) ← walkUp parents st.1 (parents.length + 1) node []
  let level ← idx st.1 node
  let (_, levels, maxLevel) ← path.foldlM walkBack (level, st.1, st.2)
  pure (levels, maxLevel)

/-- `node_depth_levels`, `utils.rs:153-188` (without the debug assertion). -/
def nodeDepthLevels (parents : List (Option Nat)) : R (List Nat × Nat) :=
  (List.range parents.length).foldlM (levelStep parents) (List.replicate parents.length 0, 0)

/-- `prefix_sum`, `utils.rs:206-215`. -/
def prefixSumFrom : Nat → List Nat → List Nat
  | _, [] => []
  | sum, v :: vs => (sum + v) :: prefixSumFrom (sum + v) vs

end Fiksi
