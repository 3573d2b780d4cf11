import Verif.Model.Cholesky
import Verif.Model.Permutation
import Verif.Model.Lbfgs
/-!
# Sparse QR (`solvi/src/decomposition/sparse/qr.rs`)

The column ordering `colamd` is a parameter. Entries of the row permutation that are `usize::MAX` are `none`; using one as an index is
out of bounds.
-/
namespace Fiksi

/-- `QrOrdering`, `qr.rs:49-61`. -/
inductive QrOrdering where
  | natural
  | colamd
  deriving DecidableEq

/-- `SymbolicQr`, `qr.rs:68-75`. -/
structure SymbolicQr where
  rowPermutation : List (Option Nat)
  rStructure : SparseStructure
  hStructure : SparseStructure
  colPermutation : List Nat
  invColPermutationSequence : PermutationSequence
  deriving DecidableEq

/-- `Qr`, `qr.rs:91-103`; the borrowed fields are those of the symbolic decomposition. -/
structure Qr (T : Type) where
  sym : SymbolicQr
  r : SparseColMat T
  hValues : List T
  hBetas : List T
  x : List T

/-- `inv_permutation`, `qr.rs:170-173`. -/
def inversePermutation (n : Nat) (permutation : List Nat) : R (List Nat) :=
  permutation.zipIdx.foldlM (fun (inv : List Nat) p => setIdx inv p.1 p.2) (List.replicate n 0)

/-- The column permutation, its inverse as swaps, and the permuted structure, `qr.rs:119-187`. The permutation that `colamd` computes is a
parameter. -/
def orderColumns (colamd : SparseStructure → R (List Nat)) (a : SparseStructure) :
    QrOrdering → R (List Nat × PermutationSequence × SparseStructure)
  | .colamd => do
      let permutation ← colamd a
      let permuted ← a.permuteColumns permutation
      let inv ← inversePermutation a.ncols permutation
      let sequence ← PermutationSequence.buildForGather inv
      pure (permutation, sequence, permuted)
  | .natural => do
      let sequence ← PermutationSequence.buildForGather (List.range a.ncols)
      pure (List.range a.ncols, sequence, a)

/-- `SymbolicQr::build`, `qr.rs:118-206`. -/
def SymbolicQr.build (colamd : SparseStructure → R (List Nat)) (a : SparseStructure) (ordering : QrOrdering) : R SymbolicQr := do
  let (permutation, sequence, a) ← orderColumns colamd a ordering
  let parents ← eliminationTree false a
  let post ← postOrder parents
  let counts ← CholeskyCounts.build a parents post
  let cs ← CholeskyStructure.build a parents post counts
  pure ⟨cs.rowPermutation, cs.lStructure, cs.hStructure, permutation, sequence⟩

/-- Indexing with an entry of the row permutation. -/
def rowTarget (rowPermutation : List (Option Nat)) (row : Nat) : R Nat := do
  match ← idx rowPermutation row with
  | none => .error .indexOutOfBounds
  | some p => pure p

section
variable {T : Type} [Add T] [Sub T] [Mul T] [Div T] [Neg T] [Zero T] [One T] [FloatOps T]
open FloatOps

/-- `SymbolicQr::numeric`, `qr.rs:209-223`. -/
def SymbolicQr.numeric (T : Type) [Zero T] (s : SymbolicQr) : Qr T :=
  ⟨s, ⟨s.rStructure, List.replicate s.rStructure.rowIndices.length 0⟩, List.replicate s.hStructure.rowIndices.length 0,
    List.replicate s.hStructure.ncols 0, List.replicate s.hStructure.nrows 0⟩

/-- A term of `tau`, `qr.rs:233-235`. -/
def addTau (x values : List T) (tau : T) (p : Nat × Nat) : R T := do
  let v ← idx values p.2
  let y ← idx x p.1
  pure (tau + v * y)

/-- An update of an entry, `qr.rs:237-239`. -/
def reflectEntry (tau : T) (values : List T) (x : List T) (p : Nat × Nat) : R (List T) := do
  let y ← idx x p.1
  let v ← idx values p.2
  setIdx x p.1 (y - v * tau)

/-- `apply_householder`, `qr.rs:226-240`. -/
def applyHouseholder (x : List T) (beta : T) (rows : List Nat) (values : List T) : R (List T) := do
  let tau ← rows.zipIdx.foldlM (addTau x values) 0
  let tau := tau * beta
  rows.zipIdx.foldlM (reflectEntry tau values) x

/-- `calculate_householder`, `qr.rs:244-275`: the norm, `beta` and the new contents of the slice. -/
def calculateHouseholder : List T → R (T × T × List T)
  | [] => .error .indexOutOfBounds
  | v0 :: rest =>
      let sigma := rest.foldl (fun (s : T) value => s + value * value) 0
      if eqB sigma 0 then
        let beta : T := if leB 0 v0 then 0 else 1 + 1
        pure (FloatOps.abs v0, beta, 1 :: rest)
      else
        let norm := sqrt (sigma + v0 * v0)
        let v0' := if leB v0 0 then v0 - norm else -sigma / (v0 + norm)
        pure (norm, -(1 / (norm * v0')), v0' :: rest)

/-- An entry of a column of `a`, `qr.rs:290-292`. -/
def scatterEntry (rowPermutation : List (Option Nat)) (x : List T) (vr : T × Nat) : R (List T) := do
  let target ← rowTarget rowPermutation vr.2
  setIdx x target vr.1

/-- The values of column `k` of the Householder vectors, `qr.rs:298-305`. -/
def householderColumn (h : SparseStructure) (values : List T) (k : Nat) : R (List T) := do
  let start ← idx h.columnPointers k
  let stop ← idx h.columnPointers (k + 1)
  sliceIdx values start stop

/-- An iteration of the loop over the entries of a column of `R`, `qr.rs:294-308`. State: `x` and the values of `R`. -/
def reduceEntry (s : SymbolicQr) (hValues hBetas : List T) (j : Nat) (st : List T × List T) (p : Nat × Nat) : R (List T × List T) := do
  if p.1 = j then pure st
  else
    let values ← householderColumn s.hStructure hValues p.1
    let beta ← idx hBetas p.1
    let rows ← s.hStructure.indexColumn p.1
    let x ← applyHouseholder st.1 beta rows values
    let start ← idx s.rStructure.columnPointers j
    let y ← idx x p.1
    let rValues ← setIdx st.2 (start + p.2) y
    let x ← setIdx x p.1 0
    pure (x, rValues)

/-- An iteration of the loop that gathers the new Householder vector, `qr.rs:310-313`. State: `x` and the Householder values. -/
def gatherEntry (s : SymbolicQr) (j : Nat) (st : List T × List T) (p : Nat × Nat) : R (List T × List T) := do
  let y ← idx st.1 p.1
  let start ← idx s.hStructure.columnPointers j
  let hValues ← setIdx st.2 (start + p.2) y
  let x ← setIdx st.1 p.1 0
  pure (x, hValues)

/-- An iteration of `factorize`, `qr.rs:286-321`. -/
def factorizeColumn (a : SparseColMat T) (q : Qr T) (j : Nat) : R (Qr T) := do
  let x := List.replicate q.x.length (0 : T)
  let col ← idx q.sym.colPermutation j
  let (values, rows) ← a.indexColumn col
  let x ← (values.zip rows).foldlM (scatterEntry q.sym.rowPermutation) x
  let rRows ← q.sym.rStructure.indexColumn j
  let (x, rValues) ← rRows.zipIdx.foldlM (reduceEntry q.sym q.hValues q.hBetas j) (x, q.r.values)
  let hRows ← q.sym.hStructure.indexColumn j
  let (x, hValues) ← hRows.zipIdx.foldlM (gatherEntry q.sym j) (x, q.hValues)
  let start ← idx q.sym.hStructure.columnPointers j
  let stop ← idx q.sym.hStructure.columnPointers (j + 1)
  let v ← sliceIdx hValues start stop
  let (norm, beta, v) ← calculateHouseholder v
  let hBetas ← setIdx q.hBetas j beta
  let last ← idx q.sym.rStructure.columnPointers (j + 1)
  let last ← checkedSub last 1
  let rValues ← setIdx rValues last norm
  pure ⟨q.sym, ⟨q.r.structure', rValues⟩, hValues.take start ++ v ++ hValues.drop stop, hBetas, x⟩

/-- `Qr::factorize`, `qr.rs:281-322`. -/
def Qr.factorize (q : Qr T) (a : SparseColMat T) : R (Qr T) :=
  let q : Qr T := { q with r := ⟨q.r.structure', List.replicate q.r.values.length 0⟩, hValues := List.replicate q.hValues.length 0 }
  (List.range a.structure'.ncols).foldlM (factorizeColumn a) q

/-- A row of the permuted right-hand side, `qr.rs:337-339`. -/
def scatterRhs (rowPermutation : List (Option Nat)) (b : List T) (y : List T) (i : Nat) : R (List T) := do
  let v ← idx b i
  let target ← rowTarget rowPermutation i
  setIdx y target v

/-- An iteration of the loop over the reflectors, `qr.rs:340-344`. -/
def applyReflector (q : Qr T) (y : List T) (j : Nat) : R (List T) := do
  let range ← q.sym.hStructure.indexColumnRange j
  let rows ← q.sym.hStructure.indexColumn j
  let beta ← idx q.hBetas j
  let values ← sliceIdx q.hValues range.1 range.2
  applyHouseholder y beta rows values

/-- `Qr::q_tr_mul_mut`, `qr.rs:328-346`: the new contents of `b`. -/
def Qr.qTrMul (q : Qr T) (b : List T) : R (List T) := do
  if b.length ≠ q.sym.hStructure.nrows then .error .assertion
  else
    let y ← (List.range q.sym.hStructure.nrows).foldlM (scatterRhs q.sym.rowPermutation b) (List.replicate b.length 0)
    (List.range q.sym.hStructure.ncols).foldlM (applyReflector q) y

/-- `Qr::solve_mut`, `qr.rs:351-356`: the returned flag and the new contents of `b`. -/
def Qr.solve (q : Qr T) (b : List T) : R (Bool × List T) := do
  let b ← q.qTrMul b
  let top ← sliceIdx b 0 q.r.nrows
  let (solved, top) ← q.r.solveUpperTriangular top
  let b ← q.sym.invColPermutationSequence.permuteSlice (top ++ b.drop q.r.nrows)
  pure (solved, b)

end

end Fiksi
