import Verif.Model.ColamdApi
import Verif.Model.Qr
/-!
# The column ordering of the sparse QR (`solvi/src/decomposition/sparse/qr.rs`)
-/
namespace Fiksi

/-- `i32::try_from(n).unwrap()` for a `usize`, `qr.rs:125-127` and `158-159`. -/
def i32OfUsize (n : Nat) : R Int := if n < 2 ^ 31 then .ok n else .error .conversion

/-- `n as usize` for an `i32`, `qr.rs:165`. -/
def usizeAs (n : Int) : Nat := (n % 2 ^ 64).toNat

section
variable {F : Type} [Mul F] [Zero F] [FloatOps F]

/-- `Options::DEFAULT`, `colamd_rs/src/options.rs:25-29`. -/
def ColamdOptions.default : ColamdOptions F := ⟨FloatOps.ofNat 10, FloatOps.ofNat 10, true⟩

/-- The permutation that `SymbolicQr::build` obtains from `colamd`, `qr.rs:123-165`. The casts of the entries to `i32` are exact for the values
reached (`asI32`). -/
def colamdOfStructure (cast : F → Int) (a : SparseStructure) : R (List Nat) := do
  let nnz ← i32OfUsize a.rowIndices.length
  let nRow ← i32OfUsize a.nrows
  let nCol ← i32OfUsize a.ncols
  let len ← unwrap (colamdRecommended nnz nRow nCol)
  let scratch := (a.rowIndices.map asI32).take len ++ List.replicate (len - a.rowIndices.length) 0
  let r ← colamd cast ColamdOptions.default nRow nCol scratch (a.columnPointers.map asI32)
  match r.1 with
  | .error _ => .error .unwrapNone
  | .ok _ =>
    let p ← unwrap r.2
    pure ((p.map usizeAs).take a.ncols)

end

end Fiksi
