import Verif.Model.Sparse
/-!
# Elimination tree (`solvi/src/decomposition/sparse/cholesky.rs:31-84`)

`usize::MAX` (no column) is `none`.
-/
namespace Fiksi

/-- Recording the parent of a column without an ancestor, `cholesky.rs:70-72`. -/
def linkRoot (parents : List (Option Nat)) (k col : Nat) : Option Nat → R (List (Option Nat))
  | none => setIdx parents k (some col)
  | some _ => .ok parents

/-- The walk towards the root with path compression, `cholesky.rs:61-74`: the new `parents` and `ancestors`. The second argument bounds the
number of iterations. -/
def climb (col : Nat) : Nat → Option Nat → List (Option Nat) → List (Option Nat) → R (List (Option Nat) × List (Option Nat))
  | 0, _, _, _ => .error .outOfFuel
  | _ + 1, none, parents, ancestors => .ok (parents, ancestors)
  | fuel + 1, some k, parents, ancestors =>
      if col ≤ k then .ok (parents, ancestors)
      else do
        let next ← idx ancestors k
        let ancestors ← setIdx ancestors k (some col)
        let parents ← linkRoot parents k col next
        climb col fuel next parents ancestors

/-- The variables of `elimination_tree`. -/
structure EtreeState where
  parents : List (Option Nat)
  ancestors : List (Option Nat)
  prevCol : List (Option Nat)
  deriving DecidableEq

/-- An entry, `cholesky.rs:55-79`, for the tree of `A` (`SYMMETRIC`). -/
def touchSymmetric (n col : Nat) (st : EtreeState) (row : Nat) : R EtreeState := do
  let (parents, ancestors) ← climb col (n + 1) (some row) st.parents st.ancestors
  pure ⟨parents, ancestors, st.prevCol⟩

/-- An entry, `cholesky.rs:55-79`, for the tree of `A^T A` (not `SYMMETRIC`). -/
def touchNormal (n col : Nat) (st : EtreeState) (row : Nat) : R EtreeState := do
  let k ← idx st.prevCol row
  let (parents, ancestors) ← climb col (n + 1) k st.parents st.ancestors
  let prevCol ← setIdx st.prevCol row (some col)
  pure ⟨parents, ancestors, prevCol⟩

/-- A column, `cholesky.rs:51-80`. -/
def etreeColumn (symmetric : Bool) (a : SparseStructure) (st : EtreeState) (col : Nat) : R EtreeState := do
  let rows ← a.indexColumn col
  rows.foldlM (if symmetric then touchSymmetric a.ncols col else touchNormal a.ncols col) st

/-- `elimination_tree`, `cholesky.rs:31-84`. -/
def eliminationTree (symmetric : Bool) (a : SparseStructure) : R (List (Option Nat)) := do
  let n := a.ncols
  let st ← (List.range n).foldlM (etreeColumn symmetric a)
    ⟨List.replicate n none, List.replicate n none, if symmetric then [] else List.replicate a.nrows none⟩
  pure st.parents

end Fiksi
