import Verif.Model.Lm
import Verif.Model.Qr
/-!
# The linear solver of Levenberg–Marquardt (`fiksi/src/solve/lm.rs` with `solvi`)

The sorting routine and the column ordering are parameters.
-/
namespace Fiksi

section
variable {T : Type} [Add T] [Sub T] [Mul T] [Div T] [Neg T] [Zero T] [One T] [FloatOps T]

/-- `TripletMat::new` and `push_triplet` for each triplet, `lm.rs:80-96`. After an accepted step the code reuses the object after `clear`
(`lm.rs:173`), which sets the shape to 0 × 0; the damping entries then restore it, unless there are no columns. The model starts from the full
shape in both cases. -/
def tripletsOf (m n : Nat) (ts : List (Nat × Nat × T)) : TripletMat T := ts.foldl (fun a t => a.push t.1 t.2.1 t.2.2) (TripletMat.new m n)

/-- `*index_column_mut(idx).0.last_mut().unwrap() = value`, `lm.rs:119-125` with `sparse_col_mat.rs:584-596`. -/
def setDamping (value : T) (a : SparseColMat T) (col : Nat) : R (SparseColMat T) := do
  let range ← a.structure'.indexColumnRange col
  let values ← sliceIdx a.values range.1 range.2
  let _ ← sliceIdx a.structure'.rowIndices range.1 range.2
  if values.length = 0 then .error .unwrapNone
  else
    let values ← setIdx a.values (range.2 - 1) value
    pure ⟨a.structure', values⟩

/-- The linear solver of `levenberg_marquardt`: `lm.rs:98-104`, and `119-132` in the loop. The code keeps the compressed matrix between
the rounds of the inner loop, where only the damping changes, and overwrites it each time; the model compresses anew. The code also
factorizes with the same buffers each time; the model starts with those of `numeric` (`C41_solve` shows that what they hold does not matter). -/
def qrLeastSquares (sort : SortByKey) (colamd : SparseStructure → R (List Nat)) : LeastSquares T where
  Symbolic := SymbolicQr
  build m n ts := do
    let a ← SparseColMat.fromTripletMat sort (tripletsOf m n ts)
    SymbolicQr.build colamd a.structure' .colamd
  solve sym m n ts damping b := do
    let a ← SparseColMat.fromTripletMat sort (tripletsOf m n ts)
    let a ← (List.range n).foldlM (setDamping damping) a
    let q ← (sym.numeric T).factorize a
    let (solved, b) ← q.solve b
    pure (if solved then some b else none)

end

end Fiksi
