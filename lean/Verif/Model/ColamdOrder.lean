import Verif.Model.Colamd
/-!
# Column ordering: the minimum degree ordering (`colamd_rs/src/colamd.rs`)

A loop over the pointers `cp` from the start of a column or row to its end is a fold over `span start length`; the entry is read when its
turn comes. A pointer that is only computed, not dereferenced, is not checked.

Every operation on `i32` is checked for overflow (`i32`), and so is every cast of a pointer difference to `i32`. Not checked are the steps of
loop counters, which stay between `-1` and the (checked) end of their loop, and `x - 1` for a number `x` of rows or columns, which is not negative.
-/
namespace Fiksi

/-- `Options`, `colamd_rs/src/options.rs:7-22`. -/
structure ColamdOptions (F : Type) where
  denseRowControl : F
  denseColControl : F
  aggressive : Bool

section Dense
variable {F : Type} [Add F] [Sub F] [Mul F] [Div F] [Neg F] [Zero F] [One F] [FloatOps F]
open FloatOps

/-- `max(16, control * sqrt(n)) as int32_t`, `colamd.rs:687-692` and `697-705`. The cast is the parameter `cast`. -/
def denseCount (cast : F → Int) (control : F) (n : Int) : Int :=
  cast (if ltB (control * sqrt (ofNat n.toNat)) (ofNat 16) then ofNat 16 else control * sqrt (ofNat n.toNat))

/-- `dense_row_count`, `colamd.rs:684-693`. -/
def denseRowCount (cast : F → Int) (options : ColamdOptions F) (nCol : Int) : Int :=
  if ltB options.denseRowControl 0 then nCol - 1 else denseCount cast options.denseRowControl nCol

/-- `dense_col_count`, `colamd.rs:694-706`. -/
def denseColCount (cast : F → Int) (options : ColamdOptions F) (nRow nCol : Int) : Int :=
  if ltB options.denseColControl 0 then nRow - 1
  else denseCount cast options.denseColControl (if nRow < nCol then nRow else nCol)

end Dense

/-- An empty column is ordered last, `colamd.rs:710-719`. -/
def killEmptyColumn (s : Mem ColamdCol × Int) (c : Int) : R (Mem ColamdCol × Int) := do
  let col ← s.1.read c
  if col.length = 0 then do
    let k ← i32 (s.2 - 1)
    let cols ← s.1.write c { col with score := k, start := -1 }
    pure (cols, k)
  else pure s

/-- `(*Row.offset(*cp)).shared1.degree -= 1`, `colamd.rs:730`. -/
def lowerDegree (a : Mem Int) (rows : Mem ColamdRow) (cp : Int) : R (Mem ColamdRow) := do
  let row ← a.read cp
  let r ← rows.read row
  let degree ← i32 (r.degree - 1)
  rows.write row { r with degree := degree }

/-- A dense column is ordered last and removed from the degrees of its rows, `colamd.rs:720-737`. -/
def killDenseColumn (denseCol : Int) (a : Mem Int) (s : Mem ColamdRow × Mem ColamdCol × Int) (c : Int) :
    R (Mem ColamdRow × Mem ColamdCol × Int) := do
  let col ← s.2.1.read c
  if 0 ≤ col.start ∧ denseCol < col.length then do
    let k ← i32 (s.2.2 - 1)
    let rows ← (span col.start col.length.toNat).foldlM (lowerDegree a) s.1
    let cols ← s.2.1.write c { col with score := k, start := -1 }
    pure (rows, cols, k)
  else pure s

/-- Dense and empty rows are removed, `colamd.rs:738-748`: the rows, `n_row2` and `max_deg`. -/
def killDenseRow (denseRow : Int) (s : Mem ColamdRow × Int × Int) (r : Int) : R (Mem ColamdRow × Int × Int) := do
  let row ← s.1.read r
  if denseRow < row.degree ∨ row.degree = 0 then do
    let rows ← s.1.write r { row with mark := -1 }
    let n ← i32 (s.2.1 - 1)
    pure (rows, n, s.2.2)
  else pure (s.1, s.2.1, if s.2.2 > row.degree then s.2.2 else row.degree)

/-- One entry of the initial score of a column, `colamd.rs:756-770`: `A`, the offset `new_cp` and the score. -/
def scoreEntry (nCol : Int) (rows : Mem ColamdRow) (s : Mem Int × Int × Int) (cp : Int) : R (Mem Int × Int × Int) := do
  let row ← s.1.read cp
  let r ← rows.read row
  if r.mark < 0 then pure s
  else do
    let a ← s.1.write s.2.1 row
    let others ← i32 (r.degree - 1)
    let score ← i32 (s.2.2 + others)
    pure (a, s.2.1 + 1, if score < nCol then score else nCol)

/-- The initial score of a column, `colamd.rs:749-784`. -/
def scoreColumn (nCol : Int) (rows : Mem ColamdRow) (s : Mem ColamdCol × Mem Int × Int) (c : Int) :
    R (Mem ColamdCol × Mem Int × Int) := do
  let col ← s.1.read c
  if 0 ≤ col.start then do
    let t ← (span col.start col.length.toNat).foldlM (scoreEntry nCol rows) (s.2.1, col.start, 0)
    let length ← i32 (t.2.1 - col.start)
    if length = 0 then do
      let k ← i32 (s.2.2 - 1)
      let cols ← s.1.write c { col with score := k, start := -1 }
      pure (cols, t.1, k)
    else do
      let cols ← s.1.write c { col with length := length, score := t.2.2 }
      pure (cols, t.1, s.2.2)
  else pure s

/-- A column is put at the front of the list of its score, `colamd.rs:1051-1057` and `795-801`. -/
def pushDegree (cols : Mem ColamdCol) (head : Mem Int) (c score : Int) : R (Mem ColamdCol × Mem Int) := do
  let next ← head.read score
  let cols ← cols.modify c (fun col => { col with prev := -1, next := next })
  let cols ← if next ≠ -1 then cols.modify next (fun col => { col with prev := c }) else pure cols
  let head ← head.write score c
  pure (cols, head)

/-- The degree lists, `colamd.rs:791-805`. -/
def listColumn (s : Mem ColamdCol × Mem Int) (c : Int) : R (Mem ColamdCol × Mem Int) := do
  let col ← s.1.read c
  if 0 ≤ col.start then pushDegree s.1 s.2 c col.score else pure s

/-- `init_scoring`, `colamd.rs:656-809`, for given thresholds: the buffers, `n_row2`, `n_col2` and `max_deg`. (`min_score` is computed there
but not used.) -/
def initScoring (nRow nCol denseRow denseCol : Int) (b : ColamdBuffers) : R (ColamdBuffers × Int × Int × Int) := do
  let s ← (span 0 nCol.toNat).reverse.foldlM killEmptyColumn (b.cols, nCol)
  let s ← (span 0 nCol.toNat).reverse.foldlM (killDenseColumn denseCol b.a) (b.rows, s.1, s.2)
  let t ← (span 0 nRow.toNat).foldlM (killDenseRow denseRow) (s.1, nRow, 0)
  let u ← (span 0 nCol.toNat).reverse.foldlM (scoreColumn nCol t.1) (s.2.1, b.a, s.2.2)
  let stop ← i32 (nCol + 1)
  let head ← (span 0 stop.toNat).foldlM (fun head c => head.write c (-1)) b.head
  let v ← (span 0 nCol.toNat).reverse.foldlM listColumn (u.1, head)
  pure (⟨t.1, v.1, u.2.1, v.2⟩, t.2.1, u.2.2, t.2.2)

/-- One row of `clear_mark`, `colamd.rs:1317-1322`. -/
def clearRow (rows : Mem ColamdRow) (r : Int) : R (Mem ColamdRow) := do
  let row ← rows.read r
  if 0 ≤ row.mark then rows.write r { row with mark := 0 } else pure rows

/-- `clear_mark`, `colamd.rs:1308-1326`: the rows and the new tag. -/
def clearMark (tagMark maxMark nRow : Int) (rows : Mem ColamdRow) : R (Mem ColamdRow × Int) := do
  if tagMark ≤ 0 ∨ maxMark ≤ tagMark then do
    let rows ← (span 0 nRow.toNat).foldlM clearRow rows
    pure (rows, 1)
  else pure (rows, tagMark)

/-- One entry of a column in `garbage_collection`, `colamd.rs:1247-1254`: `A` and `pdest`. -/
def moveColumnEntry (rows : Mem ColamdRow) (s : Mem Int × Int) (psrc : Int) : R (Mem Int × Int) := do
  let r ← s.1.read psrc
  let row ← rows.read r
  if 0 ≤ row.mark then do
    let a ← s.1.write s.2 r
    pure (a, s.2 + 1)
  else pure s

/-- One column in `garbage_collection`, `colamd.rs:1238-1262`. -/
def moveColumn (rows : Mem ColamdRow) (s : Mem ColamdCol × Mem Int × Int) (c : Int) : R (Mem ColamdCol × Mem Int × Int) := do
  let col ← s.1.read c
  if 0 ≤ col.start then do
    let start ← i32 s.2.2
    let t ← (span col.start col.length.toNat).foldlM (moveColumnEntry rows) s.2
    let length ← i32 (t.2 - start)
    let cols ← s.1.write c { col with start := start, length := length }
    pure (cols, t)
  else pure s

/-- The first entry of a row is replaced by a marker, `colamd.rs:1263-1275`. -/
def markRowStart (s : Mem ColamdRow × Mem Int) (r : Int) : R (Mem ColamdRow × Mem Int) := do
  let row ← s.1.read r
  if row.mark < 0 ∨ row.length = 0 then do
    let rows ← s.1.write r { row with mark := -1 }
    pure (rows, s.2)
  else do
    let first ← s.2.read row.start
    let rows ← s.1.write r { row with mark := first }
    let v ← i32 (-r)
    let v ← i32 (v - 1)
    let a ← s.2.write row.start v
    pure (rows, a)

/-- One entry of a row in `garbage_collection`, `colamd.rs:1290-1298`: `A` and `pdest`. -/
def moveRowEntry (cols : Mem ColamdCol) (s : Mem Int × Int) (psrc : Int) : R (Mem Int × Int) := do
  let c ← s.1.read psrc
  let col ← cols.read c
  if 0 ≤ col.start then do
    let a ← s.1.write s.2 c
    pure (a, s.2 + 1)
  else pure s

/-- The scan for rows in `garbage_collection`, `colamd.rs:1276-1304`: the rows, `A` and `pdest`. -/
def moveRows (cols : Mem ColamdCol) (pfree : Int) : Nat → Mem ColamdRow → Mem Int → Int → Int → R (Mem ColamdRow × Mem Int × Int)
  | 0, _, _, _, _ => .error .outOfFuel
  | fuel + 1, rows, a, pdest, psrc => do
      if psrc < pfree then do
        let v ← a.read psrc
        if v < 0 then do
          let r ← i32 (-v)
          let r ← i32 (r - 1)
          let row ← rows.read r
          let a ← a.write psrc row.mark
          let start ← i32 pdest
          let t ← (span psrc row.length.toNat).foldlM (moveRowEntry cols) (a, pdest)
          let length ← i32 (t.2 - start)
          let rows ← rows.write r { row with start := start, length := length }
          moveRows cols pfree fuel rows t.1 t.2 (psrc + row.length.toNat)
        else moveRows cols pfree fuel rows a pdest (psrc + 1)
      else pure (rows, a, pdest)

/-- `garbage_collection`, `colamd.rs:1222-1307`: the buffers and the new `pfree`. -/
def garbageCollection (nRow nCol : Int) (b : ColamdBuffers) (pfree : Int) : R (ColamdBuffers × Int) := do
  let s ← (span 0 nCol.toNat).foldlM (moveColumn b.rows) (b.cols, b.a, 0)
  let t ← (span 0 nRow.toNat).foldlM markRowStart (b.rows, s.2.1)
  let u ← moveRows s.1 pfree (pfree.toNat + 1) t.1 t.2 s.2.2 s.2.2
  let pfree ← i32 u.2.2
  pure (⟨u.1, s.1, u.2.1, b.head⟩, pfree)

/-- The search for the first non-empty degree list, `colamd.rs:860-862`. -/
def findScore (nCol : Int) (head : Mem Int) : Nat → Int → R Int
  | 0, _ => .error .outOfFuel
  | fuel + 1, minScore => do
      let h ← head.read minScore
      if h = -1 ∧ minScore < nCol then do
        let next ← i32 (minScore + 1)
        findScore nCol head fuel next
      else pure minScore

/-- The variables of the construction of a pivot row, `colamd.rs:883-911`. -/
structure PivotState where
  cols : Mem ColamdCol
  a : Mem Int
  pfree : Int
  degree : Int

/-- One column of one row of the pivot column, `colamd.rs:895-909`. -/
def pivotEntry (s : PivotState) (rp : Int) : R PivotState := do
  let col ← s.a.read rp
  let c ← s.cols.read col
  if 0 < c.thickness ∧ 0 ≤ c.start then do
    let thickness ← i32 (-c.thickness)
    let cols ← s.cols.write col { c with thickness := thickness }
    let pfree ← i32 (s.pfree + 1)
    let a ← s.a.write s.pfree col
    let degree ← i32 (s.degree + c.thickness)
    pure ⟨cols, a, pfree, degree⟩
  else pure s

/-- One row of the pivot column, `colamd.rs:888-911`. -/
def pivotRowOf (rows : Mem ColamdRow) (s : PivotState) (cp : Int) : R PivotState := do
  let row ← s.a.read cp
  let r ← rows.read row
  if 0 ≤ r.mark then (span r.start r.length.toNat).foldlM pivotEntry s else pure s

/-- The rows of the pivot column die, `colamd.rs:918-925`. -/
def killRow (a : Mem Int) (rows : Mem ColamdRow) (cp : Int) : R (Mem ColamdRow) := do
  let row ← a.read cp
  rows.modify row (fun r => { r with mark := -1 })

/-- One row of the set differences of a column, `colamd.rs:953-971`. -/
def differenceEntry (aggressive : Bool) (tagMark thickness : Int) (a : Mem Int) (rows : Mem ColamdRow) (cp : Int) :
    R (Mem ColamdRow) := do
  let row ← a.read cp
  let r ← rows.read row
  if r.mark < 0 then pure rows
  else do
    let before ← i32 (r.mark - tagMark)
    let difference ← i32 ((if before < 0 then r.degree else before) - thickness)
    if difference = 0 ∧ aggressive then rows.write row { r with mark := -1 }
    else do
      let mark ← i32 (difference + tagMark)
      rows.write row { r with mark := mark }

/-- A column is taken out of its degree list, `colamd.rs:940-950`. -/
def unlinkColumn (cols : Mem ColamdCol) (head : Mem Int) (c : ColamdCol) : R (Mem ColamdCol × Mem Int) := do
  if c.prev = -1 then do
    let head ← head.write c.score c.next
    let cols ← if c.next ≠ -1 then cols.modify c.next (fun n => { n with prev := c.prev }) else pure cols
    pure (cols, head)
  else do
    let cols ← cols.modify c.prev (fun n => { n with next := c.next })
    let cols ← if c.next ≠ -1 then cols.modify c.next (fun n => { n with prev := c.prev }) else pure cols
    pure (cols, head)

/-- One column of the pivot row in the computation of the set differences, `colamd.rs:932-972`. -/
def differenceColumn (aggressive : Bool) (tagMark : Int) (b : ColamdBuffers) (rp : Int) : R ColamdBuffers := do
  let col ← b.a.read rp
  let c ← b.cols.read col
  let thickness ← i32 (-c.thickness)
  let cols ← b.cols.write col { c with thickness := thickness }
  let (cols, head) ← unlinkColumn cols b.head c
  let c ← cols.read col
  let rows ← (span c.start c.length.toNat).foldlM (differenceEntry aggressive tagMark c.thickness b.a) b.rows
  pure ⟨rows, cols, b.a, head⟩

/-- One row of the new score of a column, `colamd.rs:984-998`: `A`, the offset `new_cp`, the hash and the score. -/
def hashEntry (nCol tagMark : Int) (rows : Mem ColamdRow) (s : Mem Int × Int × Nat × Int) (cp : Int) :
    R (Mem Int × Int × Nat × Int) := do
  let row ← s.1.read cp
  let r ← rows.read row
  if r.mark < 0 then pure s
  else do
    let a ← s.1.write s.2.1 row
    let difference ← i32 (r.mark - tagMark)
    let score ← i32 (s.2.2.2 + difference)
    pure (a, s.2.1 + 1, (s.2.2.1 + row.toNat) % 2 ^ 32, if score < nCol then score else nCol)

/-- A column is put into its hash bucket, `colamd.rs:1009-1019`. -/
def pushHash (cols : Mem ColamdCol) (head : Mem Int) (col hash : Int) : R (Mem ColamdCol × Mem Int) := do
  let headColumn ← head.read hash
  if headColumn > -1 then do
    let h ← cols.read headColumn
    let cols ← cols.write headColumn { h with prev := col }
    let cols ← cols.modify col (fun c => { c with next := h.prev, prev := hash })
    pure (cols, head)
  else do
    let first ← i32 (headColumn + 2)
    let first ← i32 (-first)
    let entry ← i32 (col + 2)
    let entry ← i32 (-entry)
    let head ← head.write hash entry
    let cols ← cols.modify col (fun c => { c with next := first, prev := hash })
    pure (cols, head)

/-- The variables of the second pass over the pivot row, `colamd.rs:973-1021`. -/
structure HashState where
  cols : Mem ColamdCol
  a : Mem Int
  head : Mem Int
  k : Int
  degree : Int

/-- One column of the second pass over the pivot row, `colamd.rs:975-1021`. -/
def hashColumn (nCol tagMark : Int) (rows : Mem ColamdRow) (s : HashState) (rp : Int) : R HashState := do
  let col ← s.a.read rp
  let c ← s.cols.read col
  let t ← (span c.start c.length.toNat).foldlM (hashEntry nCol tagMark rows) (s.a, c.start, 0, 0)
  let length ← i32 (t.2.1 - c.start)
  if length = 0 then do
    let degree ← i32 (s.degree - c.thickness)
    let cols ← s.cols.write col { c with length := 0, start := -1, score := s.k }
    let k ← i32 (s.k + c.thickness)
    pure ⟨cols, t.1, s.head, k, degree⟩
  else do
    let cols ← s.cols.write col { c with length := length, score := t.2.2.2 }
    let buckets ← i32 (nCol + 1)
    let (cols, head) ← pushHash cols s.head col ((t.2.2.1 % buckets.toNat : Nat) : Int)
    pure ⟨cols, t.1, head, s.k, s.degree⟩

/-- The comparison of two columns of equal length, `colamd.rs:1188-1198`: whether `i != length` at the end, negated. -/
def sameColumn (a : Mem Int) (start1 start2 : Int) : List Int → R Bool
  | [] => pure true
  | i :: l => do
      let x ← a.read (start1 + i)
      let y ← a.read (start2 + i)
      if x ≠ y then pure false else sameColumn a start1 start2 l

/-- The inner loop of `detect_super_cols`, `colamd.rs:1178-1212`. -/
def absorbLoop (a : Mem Int) (superC : Int) : Nat → Mem ColamdCol → Int → Int → R (Mem ColamdCol)
  | 0, _, _, _ => .error .outOfFuel
  | fuel + 1, cols, prevC, c =>
      if c = -1 then pure cols
      else do
        let sc ← cols.read superC
        let cc ← cols.read c
        if cc.length ≠ sc.length ∨ cc.score ≠ sc.score then absorbLoop a superC fuel cols c cc.next
        else do
          let same ← sameColumn a sc.start cc.start (span 0 sc.length.toNat)
          if same then do
            let thickness ← i32 (sc.thickness + cc.thickness)
            let cols ← cols.write superC { sc with thickness := thickness }
            let cols ← cols.modify c (fun x => { x with thickness := superC, start := -2, score := -1 })
            let cols ← cols.modify prevC (fun x => { x with next := cc.next })
            absorbLoop a superC fuel cols prevC cc.next
          else absorbLoop a superC fuel cols c cc.next

/-- The loop over the columns of a hash bucket, `colamd.rs:1174-1214`. `length` is read once per column in the code; it does not change in
the inner loop. -/
def bucketLoop (a : Mem Int) : Nat → Mem ColamdCol → Int → R (Mem ColamdCol)
  | 0, _, _ => .error .outOfFuel
  | fuel + 1, cols, superC =>
      if superC = -1 then pure cols
      else do
        let sc ← cols.read superC
        let cols ← absorbLoop a superC (cols.size + 1) cols superC sc.next
        let sc ← cols.read superC
        bucketLoop a fuel cols sc.next

/-- One column of `detect_super_cols`, `colamd.rs:1160-1220`. -/
def superColumn (a : Mem Int) (s : Mem ColamdCol × Mem Int) (rp : Int) : R (Mem ColamdCol × Mem Int) := do
  let col ← a.read rp
  let c ← s.1.read col
  if c.start < 0 then pure s
  else do
    let headColumn ← s.2.read c.prev
    if headColumn > -1 then do
      let h ← s.1.read headColumn
      let cols ← bucketLoop a (s.1.size + 1) s.1 h.prev
      let cols ← cols.modify headColumn (fun x => { x with prev := -1 })
      pure (cols, s.2)
    else do
      let first ← i32 (headColumn + 2)
      let first ← i32 (-first)
      let cols ← bucketLoop a (s.1.size + 1) s.1 first
      let head ← s.2.write c.prev (-1)
      pure (cols, head)

/-- The variables of the last pass over the pivot row, `colamd.rs:1025-1063`. -/
structure FinishState where
  cols : Mem ColamdCol
  a : Mem Int
  head : Mem Int
  newRp : Int
  minScore : Int

/-- One column of the last pass over the pivot row, `colamd.rs:1028-1063`. -/
def finishColumn (nCol k pivotRow degree : Int) (s : FinishState) (rp : Int) : R FinishState := do
  let col ← s.a.read rp
  let c ← s.cols.read col
  if c.start < 0 then pure s
  else do
    let a ← s.a.write s.newRp col
    let stop ← i32 (c.start + c.length)
    let a ← a.write stop pivotRow
    let length ← i32 (c.length + 1)
    let curScore ← i32 (c.score + degree)
    let rest ← i32 (nCol - k)
    let maxScore ← i32 (rest - c.thickness)
    let curScore ← i32 (curScore - c.thickness)
    let curScore := if curScore < maxScore then curScore else maxScore
    let cols ← s.cols.write col { c with length := length, score := curScore }
    let (cols, head) ← pushDegree cols s.head col curScore
    pure ⟨cols, a, head, s.newRp + 1, if s.minScore < curScore then s.minScore else curScore⟩

/-- The variables of `find_ordering` that live across pivots. -/
structure OrderState where
  b : ColamdBuffers
  k : Int
  tagMark : Int
  minScore : Int
  maxDeg : Int
  pfree : Int
  garbage : Int

/-- The pivot column is taken from its list and ordered, and room is made for the pivot row, `colamd.rs:860-882`: the state and the
pivot column. -/
def choosePivot (nRow nCol aLen maxMark : Int) (s : OrderState) : R (OrderState × Int) := do
  let minScore ← findScore nCol s.b.head ((nCol - s.minScore).toNat + 1) s.minScore
  let pivot ← s.b.head.read minScore
  let c ← s.b.cols.read pivot
  let head ← s.b.head.write minScore c.next
  let cols ← if c.next ≠ -1 then s.b.cols.modify c.next (fun x => { x with prev := -1 }) else pure s.b.cols
  let cols ← cols.modify pivot (fun x => { x with score := s.k })
  let k ← i32 (s.k + c.thickness)
  let rest ← i32 (nCol - k)
  let needed := if c.score < rest then c.score else rest
  let b : ColamdBuffers := ⟨s.b.rows, cols, s.b.a, head⟩
  let stop ← i32 (s.pfree + needed)
  if aLen ≤ stop then do
    let (b, pfree) ← garbageCollection nRow nCol b s.pfree
    let garbage ← i32 (s.garbage + 1)
    let (rows, tagMark) ← clearMark 0 maxMark nRow b.rows
    pure (⟨⟨rows, b.cols, b.a, b.head⟩, k, tagMark, minScore, s.maxDeg, pfree, garbage⟩, pivot)
  else pure (⟨b, k, s.tagMark, minScore, s.maxDeg, s.pfree, s.garbage⟩, pivot)

/-- One pivot of `find_ordering`, `colamd.rs:859-1072`. -/
def orderPivot (nRow nCol aLen maxMark : Int) (aggressive : Bool) (s : OrderState) : R OrderState := do
  let (s, pivot) ← choosePivot nRow nCol aLen maxMark s
  let pc ← s.b.cols.read pivot
  -- the pivot row
  let thickness ← i32 (-pc.thickness)
  let cols ← s.b.cols.write pivot { pc with thickness := thickness }
  let t ← (span pc.start pc.length.toNat).foldlM (pivotRowOf s.b.rows) ⟨cols, s.b.a, s.pfree, 0⟩
  let cols ← t.cols.modify pivot (fun x => { x with thickness := pc.thickness })
  let maxDeg := if s.maxDeg > t.degree then s.maxDeg else t.degree
  let rows ← (span pc.start pc.length.toNat).foldlM (killRow t.a) s.b.rows
  let length ← i32 (t.pfree - s.pfree)
  let pivotRow ← if length > 0 then t.a.read pc.start else pure (-1)
  -- the set differences, the scores and the hash buckets
  let b ← (span s.pfree length.toNat).foldlM (differenceColumn aggressive s.tagMark) ⟨rows, cols, t.a, s.b.head⟩
  let h ← (span s.pfree length.toNat).foldlM (hashColumn nCol s.tagMark b.rows) ⟨b.cols, b.a, b.head, s.k, t.degree⟩
  let (cols, head) ← (span s.pfree length.toNat).foldlM (superColumn h.a) (h.cols, h.head)
  let cols ← cols.modify pivot (fun x => { x with start := -1 })
  let tagMark ← i32 (s.tagMark + maxDeg)
  let tagMark ← i32 (tagMark + 1)
  let (rows, tagMark) ← clearMark tagMark maxMark nRow b.rows
  -- the new scores
  let f ← (span s.pfree length.toNat).foldlM (finishColumn nCol h.k pivotRow h.degree) ⟨cols, h.a, head, s.pfree, s.minScore⟩
  let rows ← if h.degree > 0 then do
      let length ← i32 (f.newRp - s.pfree)
      rows.modify pivotRow (fun _ => ⟨s.pfree, length, h.degree, 0⟩)
    else pure rows
  pure ⟨⟨rows, f.cols, f.a, f.head⟩, h.k, tagMark, f.minScore, maxDeg, t.pfree, s.garbage⟩

/-- The loop of `find_ordering`, `colamd.rs:859-1072`. -/
def orderLoop (nRow nCol aLen maxMark : Int) (aggressive : Bool) (nCol2 : Int) : Nat → OrderState → R OrderState
  | 0, _ => .error .outOfFuel
  | fuel + 1, s => do
      if s.k < nCol2 then do
        let s ← orderPivot nRow nCol aLen maxMark aggressive s
        orderLoop nRow nCol aLen maxMark aggressive nCol2 fuel s
      else pure s

/-- `find_ordering`, `colamd.rs:810-1074`: the buffers and the number of garbage collections. -/
def findOrdering (nRow nCol aLen : Int) (b : ColamdBuffers) (nCol2 maxDeg pfree : Int) (aggressive : Bool) : R (ColamdBuffers × Int) := do
  let maxMark ← i32 (2147483647 - nCol)
  let (rows, tagMark) ← clearMark 0 maxMark nRow b.rows
  let s ← orderLoop nRow nCol aLen maxMark aggressive nCol2 (nCol2.toNat + 1) ⟨⟨rows, b.cols, b.a, b.head⟩, 0, tagMark, 0, maxDeg, pfree, 0⟩
  pure (s.b, s.garbage)

/-- The search for the principal parent, `colamd.rs:1096-1101`. -/
def principalParent (cols : Mem ColamdCol) : Nat → Int → R Int
  | 0, _ => .error .outOfFuel
  | fuel + 1, c => do
      let x ← cols.read c
      let y ← cols.read x.thickness
      if y.start = -1 then pure x.thickness else principalParent cols fuel x.thickness

/-- The ordering along the path to the parent, `colamd.rs:1107-1126`: the columns and the next order. -/
def orderPath (parent : Int) : Nat → Mem ColamdCol → Int → Int → R (Mem ColamdCol × Int)
  | 0, _, _, _ => .error .outOfFuel
  | fuel + 1, cols, c, order => do
      let cols ← cols.modify c (fun x => { x with score := order, thickness := parent })
      let order ← i32 (order + 1)
      let y ← cols.read parent
      if y.score ≠ -1 then pure (cols, order) else orderPath parent fuel cols parent order

/-- One column of `order_children`, `colamd.rs:1090-1131`. -/
def orderChild (cols : Mem ColamdCol) (i : Int) : R (Mem ColamdCol) := do
  let c ← cols.read i
  if c.start ≠ -1 ∧ c.score = -1 then do
    let parent ← principalParent cols (cols.size + 1) i
    let p ← cols.read parent
    let (cols, order) ← orderPath parent (cols.size + 1) cols i p.score
    cols.modify parent (fun x => { x with score := order })
  else pure cols

/-- `p[order[c]] = c`, `colamd.rs:1135-1137`. -/
def placeColumn (cols : Mem ColamdCol) (p : Mem Int) (c : Int) : R (Mem Int) := do
  let x ← cols.read c
  p.write x.score c

/-- `order_children`, `colamd.rs:1087-1138`: the new `p`. -/
def orderChildren (nCol : Int) (cols : Mem ColamdCol) (p : Mem Int) : R (Mem Int) := do
  let cols ← (span 0 nCol.toNat).foldlM orderChild cols
  (span 0 nCol.toNat).foldlM (placeColumn cols) p

end Fiksi
