import Verif.Model.EliminationTree
import Verif.Model.Forest
import Mathlib.Data.List.Sort
/-!
# Symbolic Cholesky factorisation of `A^T A` (`solvi/src/decomposition/sparse/cholesky.rs:149-594`)

`usize::MAX` is `none`. `isize` is `Int`. Additions are assumed not to overflow; subtractions of `usize` are checked, as in a build with
overflow checks. Debug assertions are not modelled. Sorting a vector of integers gives the same result for every sorting routine; the
model uses insertion sort.
-/
namespace Fiksi

/-- `a - b` for `usize`; the overflow panics when overflow checks are on. -/
def checkedSub (a b : Nat) : R Nat := if b ≤ a then .ok (a - b) else .error .assertion

/-- `slice[i] += d` for `isize`. -/
def addAt (l : List Int) (i : Nat) (d : Int) : R (List Int) := do
  let v ← idx l i
  setIdx l i (v + d)

/-- `slice[i] += d` for `usize`. -/
def addNatAt (l : List Nat) (i d : Nat) : R (List Nat) := do
  let v ← idx l i
  setIdx l i (v + d)

/-- `slice[parent] += d` if there is a parent, `cholesky.rs:267-270`, `308-311`. -/
def addAtParent (l : List Int) (d : Int) : Option Nat → R (List Int)
  | none => .ok l
  | some parent => addAt l parent d

/-- `CholeskyCounts`, `cholesky.rs:97-104`. -/
structure CholeskyCounts where
  rowCounts : List Nat
  colCounts : List Nat
  levels : List Nat
  firstColumns : List (Option Nat)
  deriving DecidableEq

/-- The places in the post-order, `cholesky.rs:159-162`. -/
def placesInPostorder (n : Nat) (postorder : List Nat) : R (List Nat) :=
  postorder.zipIdx.foldlM (fun (places : List Nat) p => setIdx places p.1 p.2) (List.replicate n 0)

/-- An iteration of the loop over the sizes of the subtrees, `cholesky.rs:169-174`. -/
def addSubtree (parents : List (Option Nat)) (sizes : List Nat) (j : Nat) : R (List Nat) := do
  match ← idx parents j with
  | none => pure sizes
  | some parent => do
      let s ← idx sizes j
      addNatAt sizes parent s

/-- The sizes of the subtrees, `cholesky.rs:168-174`. -/
def subtreeSizes (parents : List (Option Nat)) (n : Nat) (postorder : List Nat) : R (List Nat) :=
  postorder.foldlM (addSubtree parents) (List.replicate n 1)

/-- An iteration of the loop over the first descendants, `cholesky.rs:179-190`. -/
def firstDescendantStep (postorder sizes : List Nat) (firsts : List Nat) (p : Nat × Nat) : R (List Nat) := do
  let size ← idx sizes p.1
  let place ← checkedSub (p.2 + 1) size
  let first ← idx postorder place
  setIdx firsts p.1 first

/-- The first descendants, `cholesky.rs:178-190`. -/
def firstDescendants (n : Nat) (postorder sizes : List Nat) : R (List Nat) :=
  postorder.zipIdx.foldlM (firstDescendantStep postorder sizes) (List.replicate n 0)

/-- `if first_columns[i] == usize::MAX { first_columns[i] = j }`, `cholesky.rs:198-200`. -/
def noteFirst (j : Nat) (firsts : List (Option Nat)) (i : Nat) : R (List (Option Nat)) := do
  match ← idx firsts i with
  | none => setIdx firsts i (some j)
  | some _ => pure firsts

/-- The first column of every row, `cholesky.rs:194-202`. -/
def firstColumnsOf (a : SparseStructure) (postorder : List Nat) : R (List (Option Nat)) :=
  postorder.foldlM (fun (firsts : List (Option Nat)) j => do
    let rows ← a.indexColumn j
    rows.foldlM (noteFirst j) firsts) (List.replicate a.nrows none)

/-- `if place > places[f] { hadj_f[f].push(j) }`, `cholesky.rs:209-219`; an index `usize::MAX` is out of bounds. -/
def noteHigher (places : List Nat) (firstColumns : List (Option Nat)) (j place : Nat) (hadj : List (List Nat)) (i : Nat) : R (List (List Nat)) := do
  match ← idx firstColumns i with
  | none => .error .indexOutOfBounds
  | some f => do
      let fplace ← idx places f
      if fplace < place then do
        let l ← idx hadj f
        setIdx hadj f (l ++ [j])
      else pure hadj

/-- The higher adjacency sets, `cholesky.rs:206-221`. -/
def higherAdjacency (a : SparseStructure) (postorder places : List Nat) (firstColumns : List (Option Nat)) : R (List (List Nat)) :=
  postorder.zipIdx.foldlM (fun (hadj : List (List Nat)) p => do
    let rows ← a.indexColumn p.1
    rows.foldlM (noteHigher places firstColumns p.1 p.2) hadj) (List.replicate a.ncols [])

/-- `find`, `cholesky.rs:257-262`, with path compression: the new array and the representative. The first argument bounds the depth of the
recursion. -/
def dsuFind : Nat → List Nat → Nat → R (List Nat × Nat)
  | 0, _, _ => .error .outOfFuel
  | fuel + 1, dsu, x => do
      let p ← idx dsu x
      if p = x then pure (dsu, x)
      else do
        let (dsu, root) ← dsuFind fuel dsu p
        let dsu ← setIdx dsu x root
        pure (dsu, root)

/-- The variables of the main loop, `cholesky.rs:238-255`. -/
structure CountState where
  weights : List Int
  colCounts : List Nat
  prevNbr : List (Option Nat)
  prevF : List (Option Nat)
  dsu : List Nat
  deriving DecidableEq

/-- The test `first_descendant_place + 1 > prev_nbr[u].wrapping_add(1)`, `cholesky.rs:282`. -/
def newLeaf (firstPlace : Nat) : Option Nat → Bool
  | none => true
  | some p => decide (p < firstPlace)

/-- A leaf `j` of the row subtree of `u` when there was one before, `cholesky.rs:286-289`; else `cholesky.rs:291`. -/
def countLeaf (levels : List Nat) (j u : Nat) (st : CountState) : Option Nat → R CountState
  | some leaf => do
      let (dsu, q) ← dsuFind (st.dsu.length + 1) st.dsu leaf
      let lj ← idx levels j
      let lq ← idx levels q
      let d ← checkedSub lj lq
      let colCounts ← addNatAt st.colCounts u d
      let weights ← addAt st.weights q (-1)
      pure { st with weights := weights, colCounts := colCounts, dsu := dsu }
  | none => do
      let lj ← idx levels j
      let lu ← idx levels u
      let d ← checkedSub lj lu
      let colCounts ← addNatAt st.colCounts u d
      pure { st with colCounts := colCounts }

/-- The branch for a leaf, `cholesky.rs:282-294`. -/
def addLeaf (levels : List Nat) (j u : Nat) (st : CountState) : R CountState := do
  let weights ← addAt st.weights j 1
  let leaf ← idx st.prevF u
  let st ← countLeaf levels j u { st with weights := weights } leaf
  let prevF ← setIdx st.prevF u (some j)
  pure { st with prevF := prevF }

/-- The branch, or nothing. -/
def addLeafIf (levels : List Nat) (j u : Nat) (st : CountState) : Bool → R CountState
  | true => addLeaf levels j u st
  | false => .ok st

/-- An iteration of the inner loop, `cholesky.rs:273-297`. -/
def visitNeighbor (levels : List Nat) (j place firstPlace : Nat) (st : CountState) (u : Nat) : R CountState := do
  let prev ← idx st.prevNbr u
  let st ← addLeafIf levels j u st (newLeaf firstPlace prev)
  let prevNbr ← setIdx st.prevNbr u (some place)
  pure { st with prevNbr := prevNbr }

/-- UNION with the parent, `cholesky.rs:300-303`. -/
def dsuLink (dsu : List Nat) (j : Nat) : Option Nat → R (List Nat)
  | none => .ok dsu
  | some parent => setIdx dsu j parent

/-- An iteration of the main loop, `cholesky.rs:266-304`. -/
def visitColumn (parents : List (Option Nat)) (levels places firsts : List Nat) (hadj : List (List Nat)) (st : CountState) (p : Nat × Nat) :
    R CountState := do
  let parent ← idx parents p.1
  let weights ← addAtParent st.weights (-1) parent
  let first ← idx firsts p.1
  let firstPlace ← idx places first
  let nbrs ← idx hadj p.1
  let st ← nbrs.foldlM (visitNeighbor levels p.1 p.2 firstPlace) { st with weights := weights }
  let dsu ← dsuLink st.dsu p.1 parent
  pure { st with dsu := dsu }

/-- An iteration of the last loop, `cholesky.rs:307-312`. -/
def accumulate (parents : List (Option Nat)) (weights : List Int) (j : Nat) : R (List Int) := do
  let parent ← idx parents j
  let w ← idx weights j
  addAtParent weights w parent

/-- `CholeskyCounts::build`, `cholesky.rs:149-332`. The last conversion `row_count as usize` is `Int.toNat`. -/
def CholeskyCounts.build (a : SparseStructure) (parents : List (Option Nat)) (postorder : List Nat) : R CholeskyCounts := do
  let n := a.ncols
  if n ≠ parents.length then .error .assertion
  else if n ≠ postorder.length then .error .assertion
  else
    let (levels, _) ← nodeDepthLevels parents
    let places ← placesInPostorder n postorder
    let sizes ← subtreeSizes parents n postorder
    let firsts ← firstDescendants n postorder sizes
    let firstColumns ← firstColumnsOf a postorder
    let hadj ← higherAdjacency a postorder places firstColumns
    let weights := sizes.map (fun s => if s = 1 then (1 : Int) else 0)
    let st ← postorder.zipIdx.foldlM (visitColumn parents levels places firsts hadj)
      ⟨weights, List.replicate n 1, List.replicate n none, List.replicate n none, List.range n⟩
    let weights ← (List.range n).foldlM (accumulate parents) st.weights
    pure ⟨weights.map Int.toNat, st.colCounts, levels, firstColumns⟩

/-- `CholeskyStructure`, `cholesky.rs:120-138`. -/
structure CholeskyStructure where
  lStructure : SparseStructure
  rowPermutation : List (Option Nat)
  hStructure : SparseStructure
  deriving DecidableEq

/-- The variables of the row assignment, `cholesky.rs:378-385`. -/
structure QueueState where
  mFictitious : Nat
  rowPermutation : List (Option Nat)
  next : List (Option Nat)
  head : List (Option Nat)
  tail : List (Option Nat)
  nqueue : List Int
  deriving DecidableEq

/-- `if nqueue[k] == 0 { tail[k] = t }`, `cholesky.rs:395-397`, `426-428`. -/
def setTailIfEmpty (tail : List (Option Nat)) (nqueue : List Int) (k : Nat) (t : Option Nat) : R (List (Option Nat)) := do
  let c ← idx nqueue k
  if c = 0 then setIdx tail k t else pure tail

/-- Putting a row into the queue of a column, `cholesky.rs:395-401`. -/
def queueRow (st : QueueState) (i k : Nat) : R QueueState := do
  let tail ← setTailIfEmpty st.tail st.nqueue k (some i)
  let nqueue ← addAt st.nqueue k 1
  let first ← idx st.head k
  let next ← setIdx st.next i first
  let head ← setIdx st.head k (some i)
  pure { st with tail := tail, nqueue := nqueue, next := next, head := head }

/-- An iteration of the loop over the rows, `cholesky.rs:387-402`. -/
def enqueue (firstColumns : List (Option Nat)) (st : QueueState) (i : Nat) : R QueueState := do
  match ← idx firstColumns i with
  | none => pure st
  | some k => queueRow st i k

/-- Moving the rest of the queue of `k`, whose first row `i` was taken, to the parent, `cholesky.rs:424-432`; an index `usize::MAX` is out of
bounds. -/
def moveQueue (st : QueueState) (k i : Nat) : Option Nat → R QueueState
  | none => .ok st
  | some parent => do
      let t ← idx st.tail k
      let tail ← setTailIfEmpty st.tail st.nqueue parent t
      match ← idx tail k with
      | none => .error .indexOutOfBounds
      | some t => do
          let first ← idx st.head parent
          let next ← setIdx st.next t first
          let rest ← idx next i
          let head ← setIdx st.head parent rest
          let count ← idx st.nqueue k
          let nqueue ← addAt st.nqueue parent count
          pure { st with tail := tail, next := next, head := head, nqueue := nqueue }

/-- An iteration of the loop over the columns, `cholesky.rs:404-433`. -/
def assignColumn (parents : List (Option Nat)) (st : QueueState) (k : Nat) : R QueueState := do
  let first ← idx st.head k
  let i := first.getD st.mFictitious
  let mFictitious := if first = none then st.mFictitious + 1 else st.mFictitious
  let rowPermutation ← setIdx st.rowPermutation i (some k)
  let nqueue ← addAt st.nqueue k (-1)
  let st := { st with mFictitious := mFictitious, rowPermutation := rowPermutation, nqueue := nqueue }
  let count ← idx st.nqueue k
  if count ≤ 0 then pure st
  else do
    let parent ← idx parents k
    moveQueue st k i parent

/-- An iteration of the loop over the rows left over, `cholesky.rs:436-441`. State: the row permutation and the next free number. -/
def numberRow (st : List (Option Nat) × Nat) (i : Nat) : R (List (Option Nat) × Nat) := do
  match ← idx st.1 i with
  | some _ => pure st
  | none => do
      let rowPermutation ← setIdx st.1 i (some st.2)
      pure (rowPermutation, st.2 + 1)

/-- The row permutation, `cholesky.rs:378-442`, and the number of rows with the fictitious ones. -/
def assignRows (m n : Nat) (parents firstColumns : List (Option Nat)) : R (List (Option Nat) × Nat) := do
  let st ← (List.range m).reverse.foldlM (enqueue firstColumns)
    ⟨m, List.replicate (m + n) none, List.replicate m (some 0), List.replicate n none, List.replicate n none, List.replicate n 0⟩
  let st ← (List.range n).foldlM (assignColumn parents) st
  let (rowPermutation, _) ← (List.range m).foldlM numberRow (st.rowPermutation, n)
  pure (rowPermutation, st.mFictitious)

/-- The walk `while k != usize::MAX && k < j && marker[k] != j + 1`, `cholesky.rs:457-462`: the new stack (its head is its top) and `marker`. -/
def markPath (parents : List (Option Nat)) (j : Nat) : Nat → Option Nat → List Nat → List Nat → R (List Nat × List Nat)
  | 0, _, _, _ => .error .outOfFuel
  | _ + 1, none, stack, marker => .ok (stack, marker)
  | fuel + 1, some k, stack, marker =>
      if k < j then do
        let mk ← idx marker k
        if mk ≠ j + 1 then do
          let marker ← setIdx marker k (j + 1)
          let parent ← idx parents k
          markPath parents j fuel parent (k :: stack) marker
        else pure (stack, marker)
      else .ok (stack, marker)

/-- Adding a row to a Householder vector unless it is there, `cholesky.rs:465-468`, `488-491`. State: its rows and `marker`. -/
def addHRow (j : Nat) (st : List Nat × List Nat) (row : Nat) : R (List Nat × List Nat) := do
  let mr ← idx st.2 row
  if mr < j + 1 then do
    let marker ← setIdx st.2 row (j + 1)
    pure (st.1 ++ [row], marker)
  else pure st

/-- The variables while a column is processed. -/
structure ColumnState where
  stack : List Nat
  marker : List Nat
  hRows : List Nat
  deriving DecidableEq

/-- `if i > j && marker[i] < j + 1 { … }`, `cholesky.rs:464-468`. -/
def addHRowIf (j : Nat) (st : List Nat × List Nat) (row : Nat) : R (List Nat × List Nat) :=
  if j < row then addHRow j st row else .ok st

/-- An entry of the column, `cholesky.rs:456-469`; an index `usize::MAX` is out of bounds. -/
def columnEntry (parents firstColumns rowPermutation : List (Option Nat)) (j : Nat) (st : ColumnState) (i : Nat) : R ColumnState := do
  let k ← idx firstColumns i
  let (stack, marker) ← markPath parents j (parents.length + 1) k st.stack st.marker
  match ← idx rowPermutation i with
  | none => .error .indexOutOfBounds
  | some i => do
      let (hRows, marker) ← addHRowIf j (st.hRows, marker) i
      pure ⟨stack, marker, hRows⟩

/-- Carrying the rows of a child forward, `cholesky.rs:485-493`. -/
def carryRows (j : Nat) (hAll : List (List Nat)) (k : Nat) (st : List Nat × List Nat) (parent : Option Nat) : R (List Nat × List Nat) := do
  if parent = some j then do
    let rows ← idx hAll k
    rows.foldlM (addHRow j) st
  else pure st

/-- Popping a column from the stack, `cholesky.rs:477-494`. State: the row indices, the index, the rows of the Householder vector, `marker`. -/
def popColumn (parents : List (Option Nat)) (j : Nat) (hAll : List (List Nat)) (st : List Nat × Nat × List Nat × List Nat) (k : Nat) :
    R (List Nat × Nat × List Nat × List Nat) := do
  let rowIndices ← setIdx st.1 st.2.1 k
  let parent ← idx parents k
  let (hRows, marker) ← carryRows j hAll k st.2.2 parent
  pure (rowIndices, st.2.1 + 1, hRows, marker)

/-- `slice[start..stop].sort_unstable()`. -/
def sortRange (l : List Nat) (start stop : Nat) : R (List Nat) := do
  let part ← sliceIdx l start stop
  pure (l.take start ++ part.insertionSort (· ≤ ·) ++ l.drop stop)

/-- The variables of the loop over the columns, `cholesky.rs:444-452`. -/
structure FactorState where
  hAll : List (List Nat)
  rowIndices : List Nat
  marker : List Nat
  start : Nat
  deriving DecidableEq

/-- An iteration of the loop over the columns, `cholesky.rs:452-501`. -/
def factorColumn (a : SparseStructure) (parents firstColumns rowPermutation : List (Option Nat)) (colCounts : List Nat) (st : FactorState) (j : Nat) :
    R FactorState := do
  let marker ← setIdx st.marker j (j + 1)
  let hj ← idx st.hAll j
  let rows ← a.indexColumn j
  let cs ← rows.foldlM (columnEntry parents firstColumns rowPermutation j) ⟨[], marker, hj ++ [j]⟩
  let (rowIndices, stop, hRows, marker) ← cs.stack.foldlM (popColumn parents j st.hAll) (st.rowIndices, st.start, cs.hRows, cs.marker)
  let rowIndices ← sortRange rowIndices st.start stop
  let rowIndices ← setIdx rowIndices stop j
  let count ← idx colCounts j
  let hAll ← setIdx st.hAll j hRows
  pure ⟨hAll, rowIndices, marker, st.start + count⟩

/-- The rows whose first column is `j`, `cholesky.rs:507-513`. -/
def noteFirstInRow (firstColumns : List (Option Nat)) (lists : List (List Nat)) (i : Nat) : R (List (List Nat)) := do
  match ← idx firstColumns i with
  | none => pure lists
  | some j => do
      let l ← idx lists j
      setIdx lists j (l ++ [i])

/-- An iteration of the loop over the roots, `cholesky.rs:522-530`. -/
def rootStep (parents : List (Option Nat)) (roots : List Nat) (j : Nat) : R (List Nat) := do
  match ← idx parents j with
  | none => setIdx roots j j
  | some parent => do
      let r ← idx roots parent
      setIdx roots j r

/-- An iteration of the loop over the rows, `cholesky.rs:532-551`. State: `householder_row_counts` and `row_root`. -/
def rowRootStep (m : Nat) (rowPermutation firstColumns : List (Option Nat)) (levels roots : List Nat) (st : List Nat × List Nat) (i : Nat) :
    R (List Nat × List Nat) := do
  match ← idx rowPermutation i with
  | none => pure st
  | some p =>
      if m ≤ p then pure st
      else do
        match ← idx firstColumns i with
        | none => pure st
        | some f => do
            let root ← idx roots f
            let rowRoot ← setIdx st.2 i (if p < root then p else root)
            let lf ← idx levels f
            let r ← idx rowRoot i
            let lr ← idx levels r
            let count ← checkedSub (1 + lf) lr
            let counts ← setIdx st.1 i count
            pure (counts, rowRoot)

/-- An iteration of the inner loop of the weights, `cholesky.rs:556-567`. -/
def householderWeight (parents : List (Option Nat)) (rowRoots : List Nat) (j : Nat) (weights : List Int) (i : Nat) : R (List Int) := do
  let weights ← addAt weights j 1
  let root ← idx rowRoots i
  let parent ← idx parents root
  addAtParent weights (-1) parent

/-- The counts of the Householder matrix, `cholesky.rs:506-567`. The code does not use the results. -/
def householderCounts (m n : Nat) (parents : List (Option Nat)) (postorder levels : List Nat) (firstColumns rowPermutation : List (Option Nat)) :
    R (List Nat × List Int) := do
  let firstInRows ← (List.range m).foldlM (noteFirstInRow firstColumns) (List.replicate n [])
  let roots ← postorder.reverse.foldlM (rootStep parents) (List.replicate n 0)
  let (counts, rowRoots) ← (List.range m).foldlM (rowRootStep m rowPermutation firstColumns levels roots) (List.replicate m 0, List.replicate m 0)
  let weights ← (List.range n).foldlM (fun (weights : List Int) j => do
    let rows ← idx firstInRows j
    rows.foldlM (householderWeight parents rowRoots j) weights) (List.replicate n 0)
  pure (counts, weights)

/-- `CholeskyStructure::build`, `cholesky.rs:359-594`. -/
def CholeskyStructure.build (a : SparseStructure) (parents : List (Option Nat)) (postorder : List Nat) (counts : CholeskyCounts) :
    R CholeskyStructure := do
  let m := a.nrows
  let n := a.ncols
  let (rowPermutation, _) ← assignRows m n parents counts.firstColumns
  let st ← (List.range n).foldlM (factorColumn a parents counts.firstColumns rowPermutation counts.colCounts)
    ⟨List.replicate n [], List.replicate counts.colCounts.sum 0, List.replicate (m + n) 0, 0⟩
  let _ ← householderCounts m n parents postorder counts.levels counts.firstColumns rowPermutation
  let hAll := st.hAll.map (fun l => l.insertionSort (· ≤ ·))
  pure ⟨⟨n, n, st.rowIndices, 0 :: prefixSumFrom 0 counts.colCounts⟩, rowPermutation,
    ⟨m, n, hAll.flatten, 0 :: prefixSumFrom 0 (hAll.map List.length)⟩⟩

end Fiksi
