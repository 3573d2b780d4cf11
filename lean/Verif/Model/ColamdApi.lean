import Verif.Model.ColamdOrder
/-!
# Column ordering: `colamd`, `symamd` and their public wrappers (`colamd_rs/src/{colamd,lib,status}.rs`)

`debug_assert!`s are not modelled. `a` (the row indices with the workspace behind them) is scratch space for `colamd`; its contents after
the call are left out.
-/
namespace Fiksi

/-- The record at position `i` of the part of the buffer cast to `Colamd_Col`s, `colamd.rs:446`. -/
def colRecord (l : List Int) (i : Nat) : ColamdCol :=
  ⟨l.getD (6 * i) 0, l.getD (6 * i + 1) 0, l.getD (6 * i + 2) 0, l.getD (6 * i + 3) 0, l.getD (6 * i + 4) 0, l.getD (6 * i + 5) 0⟩

/-- The record at position `i` of the part of the buffer cast to `Colamd_Row`s, `colamd.rs:447`. -/
def rowRecord (l : List Int) (i : Nat) : ColamdRow :=
  ⟨l.getD (4 * i) 0, l.getD (4 * i + 1) 0, l.getD (4 * i + 2) 0, l.getD (4 * i + 3) 0⟩

/-- The buffer is split into `A`, the columns and the rows, `colamd.rs:443-447`. -/
def splitBuffer (a p : List Int) (colSize rowSize : Nat) : ColamdBuffers :=
  let n := a.length - (colSize + rowSize)
  ⟨⟨rowSize / 4, fun i => rowRecord (a.drop (n + colSize)) i.toNat⟩, ⟨colSize / 6, fun i => colRecord ((a.drop n).take colSize) i.toNat⟩,
    Mem.ofList (a.take n) 0, Mem.ofList p 0⟩

/-- The checks of `colamd`, `colamd.rs:381-442`: the error status, or the sizes of the column and row records and the number of entries. -/
def colamdChecks (nRow nCol : Int) (a p : List Int) : R (Except ColamdStats (Nat × Nat × Int)) := do
  let stats := ColamdStats.start
  if nRow < 0 then pure (.error { stats with status := -3, info1 := nRow })
  else if nCol < 0 then pure (.error { stats with status := -4, info1 := nCol })
  else do
    let nnz ← idx p nCol.toNat
    if nnz < 0 then pure (.error { stats with status := -5, info1 := nnz })
    else do
      let first ← idx p 0
      if first ≠ 0 then pure (.error { stats with status := -6, info1 := first })
      else
        match colamdSizes nCol.toNat nRow.toNat nnz.toNat with
        | none => pure (.error { stats with status := -7, info1 := 0, info2 := asI32 a.length })
        | some (colSize, rowSize, need) =>
            if a.length < need then pure (.error { stats with status := -7, info1 := asI32 need, info2 := asI32 a.length })
            else pure (.ok (colSize, rowSize, nnz))

section
variable {F : Type} [Add F] [Sub F] [Mul F] [Div F] [Neg F] [Zero F] [One F] [FloatOps F]

/-- The part of `colamd` after the checks of the arguments, `colamd.rs:443-494`: the statistics, and the new `p` if it succeeded. -/
def colamdOrder (cast : F → Int) (options : ColamdOptions F) (nRow nCol : Int) (a p : List Int) (colSize rowSize : Nat) (nnz : Int) :
    R (ColamdStats × Option (List Int)) := do
  match ← initRowsCols nRow nCol (splitBuffer a p colSize rowSize) ColamdStats.start with
  | .error stats => pure (stats, none)
  | .ok (b, stats) => do
      let (b, nRow2, nCol2, maxDeg) ← initScoring nRow nCol (denseRowCount cast options nCol) (denseColCount cast options nRow nCol) b
      let pfree ← mulI32 2 nnz
      let (b, garbage) ← findOrdering nRow nCol (asI32 (a.length - (colSize + rowSize))) b nCol2 maxDeg pfree options.aggressive
      let p ← orderChildren nCol b.cols b.head
      let denseRow ← i32 (nRow - nRow2)
      let denseCol ← i32 (nCol - nCol2)
      pure ({ stats with denseRow := denseRow, denseCol := denseCol, defrag := garbage }, some p.toList)

/-- `colamd`, `colamd.rs:354-494`: the statistics, and the new `p` if it returned `true`. -/
def colamdMain (cast : F → Int) (options : ColamdOptions F) (nRow nCol : Int) (a p : List Int) : R (ColamdStats × Option (List Int)) := do
  match ← colamdChecks nRow nCol a p with
  | .error stats => pure (stats, none)
  | .ok (colSize, rowSize, nnz) => colamdOrder cast options nRow nCol a p colSize rowSize nnz

/-- `Status`, `status.rs:7-28`. -/
inductive ColamdStatus where
  | ok
  | jumbled (highestColumn lastRow rows : Int)
  deriving DecidableEq, Repr

/-- `Statistics`, `status.rs:30-45`. -/
structure ColamdStatistics where
  status : ColamdStatus
  ignoredRows : Int
  ignoredColumns : Int
  garbageCollections : Int
  deriving DecidableEq, Repr

/-- `Error`, `status.rs:47-85`. -/
inductive ColamdError where
  | badStartPointer (got : Int)
  | aTooSmall (required actual : Int)
  | negativeEntries (column entries : Int)
  | rowOutOfBounds (column row rows : Int)
  deriving DecidableEq, Repr

/-- `stats_to_result`, `status.rs:87-125`. -/
def statsToResult (s : ColamdStats) : R (Except ColamdError ColamdStatistics) :=
  if s.status = 0 then .ok (.ok ⟨.ok, s.denseRow, s.denseCol, s.defrag⟩)
  else if s.status = 1 then .ok (.ok ⟨.jumbled s.info1 s.info2 s.info3, s.denseRow, s.denseCol, s.defrag⟩)
  else if s.status = -6 then .ok (.error (.badStartPointer s.info1))
  else if s.status = -7 then .ok (.error (.aTooSmall s.info1 s.info2))
  else if s.status = -8 then .ok (.error (.negativeEntries s.info1 s.info2))
  else if s.status = -9 then .ok (.error (.rowOutOfBounds s.info1 s.info2 s.info3))
  else .error .unreachable

/-- `column_pointers.len() == n_col.checked_add(1).and_then(…).expect("overflowed")`, `lib.rs:110-117` and `212-218`. -/
def assertPointers (n : Int) (p : List Int) : R Unit := do
  let n ← unwrap (if n + 1 < 2 ^ 31 then usizeOf (n + 1) else none)
  if p.length = n then pure () else .error .assertion

/-- `colamd`, `lib.rs:103-140`: the result and the new column pointers, which are the permutation followed by `-1` if it is `Ok`; `none` if
they are not specified by the model (`colamd` failed). -/
def colamd (cast : F → Int) (options : ColamdOptions F) (nRow nCol : Int) (rowIndices columnPointers : List Int) :
    R (Except ColamdError ColamdStatistics × Option (List Int)) := do
  assertPointers nCol columnPointers
  let r ← colamdMain cast options nRow nCol rowIndices columnPointers
  let result ← statsToResult r.1
  pure (result, r.2)

/-- The variables of the count of the columns of `M`, `colamd.rs:220-263`. -/
structure SymCount where
  count : Mem Int
  mark : Mem Int
  stats : ColamdStats
  lastRow : Int

/-- One entry of the count, `colamd.rs:232-261`. -/
def symCountEntry (n j : Int) (a : List Int) (s : SymCount) (pp : Int) : R (Except ColamdStats SymCount) := do
  let i ← (Mem.ofList a 0).read pp
  if i < 0 ∨ n ≤ i then pure (.error { s.stats with status := -9, info1 := j, info2 := i, info3 := n })
  else do
    let m ← s.mark.read i
    let stats := if i ≤ s.lastRow ∨ m = j then
      { s.stats with status := 1, info1 := j, info2 := i, info3 := s.stats.info3 + 1 } else s.stats
    let count ← if i > j ∧ m ≠ j then do
        let count ← s.count.modify i (· + 1)
        count.modify j (· + 1)
      else pure s.count
    let mark ← s.mark.write i j
    pure (.ok ⟨count, mark, stats, i⟩)

/-- One column of the count, `colamd.rs:221-262`. -/
def symCountColumn (n : Int) (a : List Int) (p : Mem Int) (s : SymCount) (j : Int) : R (Except ColamdStats SymCount) := do
  let stop ← p.read (j + 1)
  let start ← p.read j
  let length ← subI32 stop start
  if length < 0 then pure (.error { s.stats with status := -8, info1 := j, info2 := length })
  else foldC (symCountEntry n j a) (span start length.toNat) { s with lastRow := -1 }

/-- The pointer of column `j` of `M`, `colamd.rs:270-273`. -/
def symPointer (count : Mem Int) (perm : Mem Int) (j : Int) : R (Mem Int) := do
  let before ← perm.read (j - 1)
  let c ← count.read (j - 1)
  perm.write j (before + c)

/-- The variables of the construction of `M`, `colamd.rs:285-330`. -/
structure SymBuild where
  m : Mem Int
  count : Mem Int
  mark : Mem Int
  k : Int

/-- Reading the mark of row `i` if there are unsorted columns, `colamd.rs:317`. -/
def symMarked (jumbled : Bool) (mark : Mem Int) (i : Int) : R Int := if jumbled then mark.read i else .ok (-1)

/-- Marking row `i` if there are unsorted columns, `colamd.rs:324`. -/
def symMark (jumbled : Bool) (mark : Mem Int) (i j : Int) : R (Mem Int) := if jumbled then mark.write i j else .ok mark

/-- Resetting the marks if there are unsorted columns, `colamd.rs:307-311`. -/
def symUnmark (jumbled : Bool) (mark : Mem Int) (n : Nat) : R (Mem Int) :=
  if jumbled then (span 0 n).foldlM (fun mark i => mark.write i (-1)) mark else .ok mark

/-- One entry of the construction of `M`, `colamd.rs:293-302` and `316-325`. -/
def symBuildEntry (jumbled : Bool) (j : Int) (a : List Int) (s : SymBuild) (pp : Int) : R SymBuild := do
  let i ← (Mem.ofList a 0).read pp
  if i > j then do
    let marked ← symMarked jumbled s.mark i
    if jumbled ∧ marked = j then pure s
    else do
      let ci ← s.count.read i
      let m ← s.m.write ci s.k
      let count ← s.count.write i (ci + 1)
      let cj ← count.read j
      let m ← m.write cj s.k
      let count ← count.write j (cj + 1)
      let mark ← symMark jumbled s.mark i j
      pure ⟨m, count, mark, s.k + 1⟩
  else pure s

/-- One column of the construction of `M`, `colamd.rs:290-304` and `313-329`. -/
def symBuildColumn (jumbled : Bool) (a : List Int) (p : Mem Int) (s : SymBuild) (j : Int) : R SymBuild := do
  let start ← p.read j
  let stop ← p.read (j + 1)
  (span start (stop - start).toNat).foldlM (symBuildEntry jumbled j a) s

/-- `symamd` up to the call of `colamd`, `colamd.rs:180-330`: the error status, or the number of rows of `M`, the buffer with its row
indices and its column pointers. -/
def symamdMatrix (n : Int) (a p perm : List Int) : R (Except ColamdStats (Int × List Int × List Int)) := do
  let stats := ColamdStats.start
  if n < 0 then pure (.error { stats with status := -4, info1 := n })
  else do
    let nnz ← idx p n.toNat
    if nnz < 0 then pure (.error { stats with status := -5, info1 := nnz })
    else do
      let first ← idx p 0
      if first ≠ 0 then pure (.error { stats with status := -6, info1 := first })
      else do
        let pm := Mem.ofList p 0
        let mark : Mem Int := ⟨n.toNat + 1, fun i => if i < n then -1 else 0⟩
        match ← foldC (symCountColumn n a pm) (span 0 n.toNat) ⟨⟨n.toNat + 1, fun _ => 0⟩, mark, { stats with info3 := 0 }, -1⟩ with
        | .error e => pure (.error e)
        | .ok s => do
            let perm ← (Mem.ofList perm 0).write 0 0
            let perm ← (span 1 n.toNat).foldlM (symPointer s.count) perm
            let count ← (span 0 n.toNat).foldlM (fun count j => do count.write j (← perm.read j)) s.count
            let mnz ← perm.read n
            let length ← unwrap (colamdRecommended mnz (mnz / 2) n)
            let mark ← symUnmark (s.stats.status != 0) s.mark n.toNat
            let m ← (span 0 n.toNat).foldlM (symBuildColumn (s.stats.status != 0) a pm) ⟨⟨length, fun _ => 0⟩, count, mark, 0⟩
            pure (.ok (mnz / 2, m.m.toList, perm.toList))

/-- `symamd`, `colamd.rs:162-352`: the statistics, and the permutation if it returned `true`. `colamd`'s own success is not looked at. -/
def symamdMain (cast : F → Int) (options : ColamdOptions F) (n : Int) (a p perm : List Int) : R (ColamdStats × Option (List Int)) := do
  match ← symamdMatrix n a p perm with
  | .error stats => pure (stats, none)
  | .ok (nRow, m, perm) => do
      let r ← colamdMain cast { options with denseColControl := options.denseRowControl, denseRowControl := -1 } nRow n m perm
      pure ({ r.1 with denseRow := r.1.denseCol }, r.2)

/-- `symamd`, `lib.rs:205-244`. -/
def symamd (cast : F → Int) (options : ColamdOptions F) (n : Int) (rowIndices columnPointers permutation : List Int) :
    R (Except ColamdError ColamdStatistics × Option (List Int)) := do
  assertPointers n columnPointers
  if columnPointers.length ≠ permutation.length then .error .assertion
  else do
    let r ← symamdMain cast options n rowIndices columnPointers permutation
    let result ← statsToResult r.1
    pure (result, r.2)

end

end Fiksi
