import Verif.Model.Memory
import Verif.Model.Expr
/-!
# Column ordering: workspace, checks and the row form (`colamd_rs/src/colamd.rs`)

`i32` values are integers. Overflow is modelled where it depends on unchecked input: in the lengths of the columns
(`subI32`), in `2 * nnz` (`mulI32`) and in the casts of buffer lengths (`asI32`). The other `i32` operations are on row numbers, column
numbers, positions in the buffer and sums bounded by those; they are unbounded in the model.
-/
namespace Fiksi

/-- `Colamd_Row`, `colamd.rs:32-57`. `degree` is the union `shared1` (also `p`), `mark` the union `shared2` (also `first_column`). -/
structure ColamdRow where
  start : Int
  length : Int
  degree : Int
  mark : Int
  deriving DecidableEq, Repr

/-- `Colamd_Col`, `colamd.rs:59-106`. `thickness` is the union `shared1` (also `parent`), `score` is `shared2` (also `order`), `prev` is
`shared3` (also `headhash` and `hash`), `next` is `shared4` (`degree_next` and `hash_next`). -/
structure ColamdCol where
  start : Int
  length : Int
  thickness : Int
  score : Int
  prev : Int
  next : Int
  deriving DecidableEq, Repr

/-- `EMPTY` (`-1`), `ALIVE` (`0`), `DEAD` (`-1`), `DEAD_PRINCIPAL` (`-1`), `DEAD_NON_PRINCIPAL` (`-2`), `colamd.rs:127-131`, are written as
numbers below. The entries of `stats` that are used: `stats[0..7]`, `colamd.rs:110-116`. -/
structure ColamdStats where
  denseRow : Int
  denseCol : Int
  defrag : Int
  status : Int
  info1 : Int
  info2 : Int
  info3 : Int
  deriving DecidableEq, Repr

/-- `stats` as initialized, `colamd.rs:373-380` and `182-189`. -/
def ColamdStats.start : ColamdStats := ⟨0, 0, 0, 0, -1, -1, 0⟩

/-- The buffers: the rows, the columns, `A` and `p` (called `head` from `init_scoring` on). -/
structure ColamdBuffers where
  rows : Mem ColamdRow
  cols : Mem ColamdCol
  a : Mem Int
  head : Mem Int

/-- `(n + 1) * size_of::<T>() / size_of::<i32>()` for a struct of `fields` `i32`s, e.g. `colamd.rs:144-147`. -/
def recordSize (n fields : Nat) : Option Nat := do
  let n ← checkedAdd64 n 1
  let n ← checkedMul64 n (4 * fields)
  some (n / 4)

/-- `usize::try_from(n).ok()` -/
def usizeOf (n : Int) : Option Nat := if 0 ≤ n then some n.toNat else none

/-- `colamd_recommended`, `colamd.rs:139-158`. -/
def colamdRecommended (nnz nRow nCol : Int) : Option Nat := do
  let nnz ← usizeOf nnz
  let nRow ← usizeOf nRow
  let nCol ← usizeOf nCol
  let c ← recordSize nCol 6
  let r ← recordSize nRow 4
  let s ← checkedMul64 nnz 2
  let s ← checkedAdd64 s c
  let s ← checkedAdd64 s r
  let s ← checkedAdd64 s nCol
  checkedAdd64 s (nnz / 5)

/-- `calculate_sizes`, `colamd.rs:410-426`: the sizes of the column records and the row records, and the total. -/
def colamdSizes (nCol nRow nnz : Nat) : Option (Nat × Nat × Nat) := do
  let c ← recordSize nCol 6
  let r ← recordSize nRow 4
  let s ← checkedMul64 nnz 2
  let s ← checkedAdd64 s nCol
  let s ← checkedAdd64 s c
  let s ← checkedAdd64 s r
  some (c, r, s)

/-- A loop whose body may end the function with an error status. -/
def foldC {σ α : Type} (f : σ → α → R (Except ColamdStats σ)) : List α → σ → R (Except ColamdStats σ)
  | [], s => .ok (.ok s)
  | x :: l, s => do
      match ← f s x with
      | .error e => pure (.error e)
      | .ok s => foldC f l s

/-- One column of the first loop of `init_rows_cols`, `colamd.rs:522-535`. -/
def initColumn (stats : ColamdStats) (p : Mem Int) (cols : Mem ColamdCol) (col : Int) : R (Except ColamdStats (Mem ColamdCol)) := do
  let start ← p.read col
  let stop ← p.read (col + 1)
  let length ← subI32 stop start
  if length < 0 then pure (.error { stats with status := -8, info1 := col, info2 := length })
  else do
    let cols ← cols.write col ⟨start, length, 1, 0, -1, -1⟩
    pure (.ok cols)

/-- The variables of the scan of the columns, `colamd.rs:543-576`. -/
structure ColumnScan where
  rows : Mem ColamdRow
  cols : Mem ColamdCol
  stats : ColamdStats
  lastRow : Int

/-- One entry of the scan, `colamd.rs:549-575`. -/
def scanEntry (nRow col : Int) (s : ColumnScan) (row : Int) : R (Except ColamdStats ColumnScan) := do
  if row < 0 ∨ nRow ≤ row then pure (.error { s.stats with status := -9, info1 := col, info2 := row, info3 := nRow })
  else do
    let r ← s.rows.read row
    let stats := if row ≤ s.lastRow ∨ r.mark = col then
      { s.stats with status := 1, info1 := col, info2 := row, info3 := s.stats.info3 + 1 } else s.stats
    if r.mark ≠ col then do
      let rows ← s.rows.write row { r with length := r.length + 1, mark := col }
      pure (.ok ⟨rows, s.cols, stats, row⟩)
    else do
      let cols ← s.cols.modify col (fun c => { c with length := c.length - 1 })
      let rows ← s.rows.write row { r with mark := col }
      pure (.ok ⟨rows, cols, stats, row⟩)

/-- One column of the scan, `colamd.rs:547-576`. -/
def scanColumn (nRow : Int) (a p : Mem Int) (s : ColumnScan) (col : Int) : R (Except ColamdStats ColumnScan) := do
  let start ← p.read col
  let stop ← p.read (col + 1)
  let entries ← a.slice start stop
  foldC (scanEntry nRow col) entries { s with lastRow := -1 }

/-- The pointer of one row, `colamd.rs:584-588`. -/
def rowPointer (rows : Mem ColamdRow) (row : Int) : R (Mem ColamdRow) := do
  let before ← rows.read (row - 1)
  rows.modify row (fun r => { r with start := before.start + before.length, degree := before.start + before.length, mark := -1 })

/-- One entry of the row form, `colamd.rs:592-613`; with `jumbled` repeated entries are skipped. -/
def rowFormEntry (jumbled : Bool) (col : Int) (s : Mem ColamdRow × Mem Int) (cp : Int) : R (Mem ColamdRow × Mem Int) := do
  let row ← s.2.read cp
  let r ← s.1.read row
  if jumbled ∧ r.mark = col then pure s
  else do
    let a ← s.2.write r.degree col
    let rows ← s.1.write row { r with degree := r.degree + 1, mark := if jumbled then col else r.mark }
    pure (rows, a)

/-- One column of the row form, `colamd.rs:594-603` and `606-612`. -/
def rowFormColumn (jumbled : Bool) (p : Mem Int) (s : Mem ColamdRow × Mem Int) (col : Int) : R (Mem ColamdRow × Mem Int) := do
  let start ← p.read col
  let stop ← p.read (col + 1)
  (span start (stop - start).toNat).foldlM (rowFormEntry jumbled col) s

/-- The start of one re-created column, `colamd.rs:633-639`. -/
def columnPointer (s : Mem ColamdCol × Mem Int) (col : Int) : R (Mem ColamdCol × Mem Int) := do
  let before ← s.1.read (col - 1)
  let cols ← s.1.modify col (fun c => { c with start := before.start + before.length })
  let p ← s.2.write col (before.start + before.length)
  pure (cols, p)

/-- One entry of the re-created columns, `colamd.rs:646-647`. -/
def recreateEntry (row : Int) (s : Mem Int × Mem Int) (rp : Int) : R (Mem Int × Mem Int) := do
  let position ← s.2.read rp
  let a ← s.1.write position row
  let p ← s.2.write rp (position + 1)
  pure (a, p)

/-- One row of the re-creation, `colamd.rs:643-649`. The loop runs over `A[start]..A[start] + length`. -/
def recreateRow (rows : Mem ColamdRow) (s : Mem Int × Mem Int) (row : Int) : R (Mem Int × Mem Int) := do
  let r ← rows.read row
  let first ← s.1.read r.start
  (span first r.length.toNat).foldlM (recreateEntry row) s

/-- The re-creation of the column form, `colamd.rs:624-650`. -/
def recreateColumns (nRow nCol : Int) (b : ColamdBuffers) : R ColamdBuffers := do
  let cols ← b.cols.modify 0 (fun c => { c with start := 0 })
  let p ← b.head.write 0 0
  let (cols, p) ← (span 1 (nCol - 1).toNat).foldlM columnPointer (cols, p)
  let (a, p) ← (span 0 nRow.toNat).foldlM (recreateRow b.rows) (b.a, p)
  pure ⟨b.rows, cols, a, p⟩

/-- The row form, `colamd.rs:578-620`. -/
def rowForm (nRow nCol : Int) (jumbled : Bool) (rows : Mem ColamdRow) (a p : Mem Int) : R (Mem ColamdRow × Mem Int) := do
  let total ← p.read nCol
  let rows ← rows.modify 0 (fun r => { r with start := total, degree := total, mark := -1 })
  let rows ← (span 1 (nRow - 1).toNat).foldlM rowPointer rows
  let (rows, a) ← (span 0 nCol.toNat).foldlM (rowFormColumn jumbled p) (rows, a)
  let rows ← (span 0 nRow.toNat).foldlM (fun rows row => rows.modify row (fun r => { r with mark := 0, degree := r.length })) rows
  pure (rows, a)

/-- `init_rows_cols`, `colamd.rs:502-655`: the new buffers and statistics, or the statistics with an error status. -/
def initRowsCols (nRow nCol : Int) (b : ColamdBuffers) (stats : ColamdStats) : R (Except ColamdStats (ColamdBuffers × ColamdStats)) := do
  if b.rows.size < nRow ∨ b.cols.size < nCol then .error .assertion
  else
    match ← foldC (initColumn stats b.head) (span 0 nCol.toNat) b.cols with
    | .error e => pure (.error e)
    | .ok cols => do
        let stats := { stats with info3 := 0 }
        let rows ← (span 0 nRow.toNat).foldlM (fun rows row => rows.modify row (fun r => { r with length := 0, mark := -1 })) b.rows
        match ← foldC (scanColumn nRow b.a b.head) (span 0 nCol.toNat) ⟨rows, cols, stats, -1⟩ with
        | .error e => pure (.error e)
        | .ok s => do
            let (rows, a) ← rowForm nRow nCol (s.stats.status == 1) s.rows b.a b.head
            if s.stats.status = 1 then do
              let b ← recreateColumns nRow nCol ⟨rows, s.cols, a, b.head⟩
              pure (.ok (b, s.stats))
            else pure (.ok (⟨rows, s.cols, a, b.head⟩, s.stats))

end Fiksi
