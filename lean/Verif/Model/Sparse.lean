import Verif.Model.Slices
import Verif.Model.Expr
/-!
# Sparse matrices (`solvi/src/triplet_mat.rs`, `solvi/src/sparse_col_mat.rs`)

`usize` is `Nat`; sums of indices are assumed not to overflow. The sentinel `usize::MAX` is `none`.
-/
namespace Fiksi

/-- `TripletMat`, `triplet_mat.rs:31-37`. -/
structure TripletMat (T : Type) where
  nrows : Nat
  ncols : Nat
  rowIndices : List Nat
  colIndices : List Nat
  values : List T

namespace TripletMat
variable {T : Type}

/-- `TripletMat::new`, `triplet_mat.rs:44-46`, `with_capacity`, `55-63` (the capacity is dropped). -/
def new (nrows ncols : Nat) : TripletMat T := ⟨nrows, ncols, [], [], []⟩

/-- `TripletMat::push_triplet`, `triplet_mat.rs:99-105`. -/
def push (a : TripletMat T) (row col : Nat) (value : T) : TripletMat T :=
  ⟨max a.nrows (row + 1), max a.ncols (col + 1), a.rowIndices ++ [row], a.colIndices ++ [col], a.values ++ [value]⟩

/-- `TripletMat::clear`, `triplet_mat.rs:111-117`. -/
def clear (_ : TripletMat T) : TripletMat T := ⟨0, 0, [], [], []⟩

/-- `TripletMat::triplet_iter`, `triplet_mat.rs:121-127`. -/
def triplets (a : TripletMat T) : List (Nat × Nat × T) := a.rowIndices.zip (a.colIndices.zip a.values)

/-- `TripletMat::transpose`, `triplet_mat.rs:141-149`. -/
def transpose (a : TripletMat T) : TripletMat T := ⟨a.ncols, a.nrows, a.colIndices, a.rowIndices, a.values⟩

/-- `FromIterator`, `triplet_mat.rs:158-174`. -/
def fromIter (l : List (Nat × Nat × T)) : TripletMat T := l.foldl (fun a t => a.push t.1 t.2.1 t.2.2) (new 0 0)

end TripletMat

/-- `SparseColMatStructure`, `sparse_col_mat.rs:191-201`. -/
structure SparseStructure where
  nrows : Nat
  ncols : Nat
  rowIndices : List Nat
  columnPointers : List Nat
  deriving DecidableEq, Repr

/-- `SparseFormatError`, `sparse_col_mat.rs:14-104`. -/
inductive SparseFormatError where
  | badNumberOfPointers (expected got : Nat)
  | badStartPointer (got : Nat)
  | badEndPointer (expected got : Nat)
  | unorderedPointer (slice start stop : Nat)
  | unorderedIndex (slice idx prev got : Nat)
  | indexOutOfBounds (slice idx value bound : Nat)
  deriving DecidableEq, Repr

/-- `SparseColMat`, `sparse_col_mat.rs:520-527`. -/
structure SparseColMat (T : Type) where
  structure' : SparseStructure
  values : List T
  deriving DecidableEq

/-- The inner loop of `try_from_data`, `sparse_col_mat.rs:264-284`; the list holds the rows with their positions. -/
def checkRows (nrows col : Nat) : Nat → List (Nat × Nat) → Option SparseFormatError
  | _, [] => none
  | prev, (row, idx) :: rest =>
      if nrows ≤ row then some (.indexOutOfBounds col idx row nrows)
      else if row ≤ prev then some (.unorderedIndex col idx prev row)
      else checkRows nrows col row rest

/-- One column of `try_from_data`, `sparse_col_mat.rs:237-286`: an error, if there is one. -/
def checkColumn (nrows : Nat) (rowIndices columnPointers : List Nat) (col : Nat) : R (Option SparseFormatError) := do
  let start ← idx columnPointers col
  let stop ← idx columnPointers (col + 1)
  if stop < start then pure (some (.unorderedPointer col start stop))
  else if start < stop then do
    let prev ← idx rowIndices start
    if nrows ≤ prev then pure (some (.indexOutOfBounds col start prev nrows))
    else pure (checkRows nrows col prev ((rowIndices.zipIdx.take stop).drop (start + 1)))
  else pure none

/-- The loop over the columns, which stops at the first error. -/
def checkColumns (nrows : Nat) (rowIndices columnPointers : List Nat) : List Nat → R (Option SparseFormatError)
  | [] => .ok none
  | col :: rest => do
      match ← checkColumn nrows rowIndices columnPointers col with
      | some e => pure (some e)
      | none => checkColumns nrows rowIndices columnPointers rest

namespace SparseStructure

/-- `SparseColMatStructure::try_from_data`, `sparse_col_mat.rs:209-294` (without the `debug_assert!`). -/
def tryFromData (nrows ncols : Nat) (rowIndices columnPointers : List Nat) : R (Except SparseFormatError SparseStructure) := do
  if columnPointers.length ≠ ncols + 1 then pure (.error (.badNumberOfPointers (ncols + 1) columnPointers.length))
  else
    let first ← idx columnPointers 0
    if first ≠ 0 then pure (.error (.badStartPointer first))
    else
      let last ← idx columnPointers ncols
      if last ≠ rowIndices.length then pure (.error (.badEndPointer rowIndices.length last))
      else
        match ← checkColumns nrows rowIndices columnPointers (List.range ncols) with
        | some e => pure (.error e)
        | none => pure (.ok ⟨nrows, ncols, rowIndices, columnPointers⟩)

/-- `SparseColMatStructure::empty`, `sparse_col_mat.rs:298-305`. -/
def empty (nrows ncols : Nat) : SparseStructure := ⟨nrows, ncols, [], []⟩

/-- `SparseColMatStructure::identity`, `sparse_col_mat.rs:309-316`. -/
def identity (n : Nat) : SparseStructure := ⟨n, n, List.range n, List.range (n + 1)⟩

/-- `SparseColMatStructure::index_column_range`, `sparse_col_mat.rs:326-334`. -/
def indexColumnRange (s : SparseStructure) (col : Nat) : R (Nat × Nat) := do
  if s.columnPointers.length ≤ col + 1 then .error .assertion
  else
    let start ← idx s.columnPointers col
    let stop ← idx s.columnPointers (col + 1)
    pure (start, stop)

/-- `SparseColMatStructure::index_column`, `sparse_col_mat.rs:341-350`. -/
def indexColumn (s : SparseStructure) (col : Nat) : R (List Nat) := do
  let range ← s.indexColumnRange col
  sliceIdx s.rowIndices range.1 range.2

end SparseStructure

/-- A sorting routine, such as `sort_unstable_by_key`; which order it gives to equal keys is left open. -/
abbrev SortByKey := (Nat → Nat × Nat) → List Nat → List Nat

/-- The variables of the loop of `from_triplet_mat`, `sparse_col_mat.rs:690-724`. -/
structure CompressState (T : Type) where
  columnPointers : List Nat
  rowIndices : List Nat
  values : List T
  prevRow : Option Nat
  prevCol : Option Nat

/-- `prev_col.wrapping_add(1)`. -/
def nextCol : Option Nat → Nat
  | none => 0
  | some c => c + 1

/-- `for col in start..=stop { column_pointers[col] = value }`, `sparse_col_mat.rs:714-716` and `729-731`. -/
def fillPointers (value start stop : Nat) (pointers : List Nat) : R (List Nat) :=
  (List.range' start (stop + 1 - start)).foldlM (fun (ps : List Nat) col => setIdx ps col value) pointers

/-- An iteration of the loop of `from_triplet_mat`, `sparse_col_mat.rs:707-724`. -/
def compressStep {T : Type} [Add T] (a : TripletMat T) (st : CompressState T) (i : Nat) : R (CompressState T) := do
  let row ← idx a.rowIndices i
  let col ← idx a.colIndices i
  if some row = st.prevRow ∧ some col = st.prevCol then do
    let last ← unwrap st.values.getLast?
    let v ← idx a.values i
    pure { st with values := st.values.dropLast ++ [last + v], prevRow := some row, prevCol := some col }
  else do
    let pointers ← if some col ≠ st.prevCol then fillPointers st.values.length (nextCol st.prevCol) col st.columnPointers
      else pure st.columnPointers
    let v ← idx a.values i
    pure ⟨pointers, st.rowIndices ++ [row], st.values ++ [v], some row, some col⟩

/-- The key of an index, `sparse_col_mat.rs:703`. -/
def tripletKey {T : Type} (a : TripletMat T) (i : Nat) : Nat × Nat := (a.colIndices.getD i 0, a.rowIndices.getD i 0)

namespace SparseColMat
variable {T : Type}

/-- `SparseColMat::from_triplet_mat`, `sparse_col_mat.rs:690-737`. The keys of the sort are read by a total function; the indices are
in range when the three arrays of the triplets have the same length, which the constructors ensure. -/
def fromTripletMat [Add T] (sort : SortByKey) (a : TripletMat T) : R (SparseColMat T) := do
  let indices := sort (tripletKey a) (List.range a.values.length)
  let st ← indices.foldlM (compressStep a) ⟨List.replicate (a.ncols + 1) 0, [], [], none, none⟩
  let pointers ← fillPointers st.values.length (nextCol st.prevCol) a.ncols st.columnPointers
  pure ⟨⟨a.nrows, a.ncols, st.rowIndices, pointers⟩, st.values⟩

/-- `SparseColMat::from_structure_and_values`, `sparse_col_mat.rs:540-548`. -/
def fromStructureAndValues (s : SparseStructure) (values : List T) : R (SparseColMat T) :=
  if s.rowIndices.length = values.length then .ok ⟨s, values⟩ else .error .assertion

/-- `SparseColMat::index_column`, `sparse_col_mat.rs:563-575`. -/
def indexColumn (a : SparseColMat T) (col : Nat) : R (List T × List Nat) := do
  let range ← a.structure'.indexColumnRange col
  let values ← sliceIdx a.values range.1 range.2
  let rows ← sliceIdx a.structure'.rowIndices range.1 range.2
  pure (values, rows)

/-- `nrows`, `sparse_col_mat.rs:612-614`. -/
def nrows (a : SparseColMat T) : Nat := a.structure'.nrows

end SparseColMat

/-- An entry of `transpose_with_values`, `sparse_col_mat.rs:447-449`. The state holds the remaining values. -/
def transposePush {T : Type} (j : Nat) (st : TripletMat T × List T) (i : Nat) : R (TripletMat T × List T) := do
  let v ← unwrap st.2.head?
  pure (st.1.push i j v, st.2.tail)

/-- A column of `transpose_with_values`, `sparse_col_mat.rs:446-450`. -/
def transposeColumn {T : Type} (s : SparseStructure) (st : TripletMat T × List T) (j : Nat) : R (TripletMat T × List T) := do
  let rows ← s.indexColumn j
  rows.foldlM (transposePush j) st

/-- `SparseColMatStructure::transpose_with_values`, `sparse_col_mat.rs:439-452`. -/
def transposeWithValues {T : Type} [Add T] (sort : SortByKey) (s : SparseStructure) (values : List T) : R (SparseColMat T) := do
  let (mat, _) ← (List.range s.ncols).foldlM (transposeColumn s) (TripletMat.new s.nrows s.ncols, values)
  SparseColMat.fromTripletMat sort mat.transpose

/-- `SparseColMat::transpose`, `sparse_col_mat.rs:679-682`. -/
def SparseColMat.transpose {T : Type} [Add T] (sort : SortByKey) (a : SparseColMat T) : R (SparseColMat T) :=
  transposeWithValues sort a.structure' a.values

/-- The value type `Dummy` of `SparseColMatStructure::transpose`, `sparse_col_mat.rs:421-427`. -/
inductive Dummy where
  | mk
  deriving DecidableEq

instance : Add Dummy := ⟨fun a _ => a⟩

/-- `SparseColMatStructure::transpose`, `sparse_col_mat.rs:417-431`; the endless iterator is a list of one value per entry. -/
def SparseStructure.transpose (sort : SortByKey) (s : SparseStructure) : R SparseStructure := do
  let a ← transposeWithValues sort s (List.replicate s.rowIndices.length Dummy.mk)
  pure a.structure'

/-- An iteration of `permute_columns_with_values`, `sparse_col_mat.rs:486-491`. State: row indices, column pointers, values. -/
def permuteColumn {T : Type} (s : SparseStructure) (values : List T) (st : List Nat × List Nat × List T) (p : Nat × Nat) :
    R (List Nat × List Nat × List T) := do
  let rows ← s.indexColumn p.1
  let pointer ← idx st.2.1 p.2
  pure (st.1 ++ rows, st.2.1 ++ [pointer + rows.length], st.2.2 ++ values)

/-- `SparseColMatStructure::permute_columns_with_values`, `sparse_col_mat.rs:468-502`. -/
def permuteColumnsWithValues {T : Type} (s : SparseStructure) (permutation : List Nat) (values : List T) : R (SparseColMat T) := do
  if values.length ≠ s.rowIndices.length then .error .assertion
  else
    let (rows, pointers, vals) ← permutation.zipIdx.foldlM (permuteColumn s values) ([], [0], [])
    pure ⟨⟨s.nrows, permutation.length, rows, pointers⟩, vals⟩

/-- `SparseColMatStructure::permute_columns`, `sparse_col_mat.rs:456-462`. -/
def SparseStructure.permuteColumns (s : SparseStructure) (permutation : List Nat) : R SparseStructure := do
  let a ← permuteColumnsWithValues s permutation (List.replicate s.rowIndices.length ())
  pure a.structure'

/-- `SparseColMat::permute_columns`, `sparse_col_mat.rs:630-633`. -/
def SparseColMat.permuteColumns {T : Type} (a : SparseColMat T) (permutation : List Nat) : R (SparseColMat T) :=
  permuteColumnsWithValues a.structure' permutation a.values

section
variable {T : Type} [Add T] [Sub T] [Mul T] [Div T] [Neg T] [Zero T] [One T] [FloatOps T]
open FloatOps

/-- An iteration of the inner loop of `solve_upper_triangular_mut`, `sparse_col_mat.rs:815-822`. -/
def subtractEntry (coeff : T) (b : List T) (vr : T × Nat) : R (List T) := do
  let x ← idx b vr.2
  setIdx b vr.2 (x - coeff * vr.1)

/-- The diagonal entry, if the last entry of the column is one, `sparse_col_mat.rs:799-803`. -/
def lastDiagonal (values : List T) (rows : List Nat) (i : Nat) : R T :=
  if rows.getLast? = some i then unwrap values.getLast? else .ok 0

/-- The outer loop of `solve_upper_triangular_mut`, `sparse_col_mat.rs:797-823`, for `i = n - 1, …, 0`. `is_zero` is
comparison with zero. -/
def solveUpperLoop (a : SparseColMat T) : Nat → List T → R (Bool × List T)
  | 0, b => .ok (true, b)
  | i + 1, b => do
      let (values, rows) ← a.indexColumn i
      let diag ← lastDiagonal values rows i
      if eqB diag 0 then pure (false, b)
      else
        let bi ← idx b i
        let coeff := bi / diag
        let b ← setIdx b i coeff
        let b ← ((values.zip rows).takeWhile (fun vr => vr.2 < i)).foldlM (subtractEntry coeff) b
        solveUpperLoop a i b

/-- `SparseColMat::solve_upper_triangular_mut`, `sparse_col_mat.rs:788-826`: the returned flag and the new contents of `b`. -/
def SparseColMat.solveUpperTriangular (a : SparseColMat T) (b : List T) : R (Bool × List T) :=
  if a.nrows ≠ b.length then .error .assertion else solveUpperLoop a a.structure'.nrows b

end

end Fiksi
