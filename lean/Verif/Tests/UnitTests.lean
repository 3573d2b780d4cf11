import Verif.Model.ColamdApi
import Verif.Model.Cholesky
import Verif.Model.EliminationTree
import Verif.Model.Permutation
import Verif.Model.Rng
/-!
# The unit tests of the code, on the model

These are tests of the model against known results that are recorded in the code base, not proofs of properties.
-/
namespace Fiksi.Tests

/-! `fiksi/src/rand.rs:49-63` -/

example : (List.range 12).map (fun k => rngNext^[k] 0) =
    [0x00000000, 0x3C6EF35F, 0x47502932, 0xD1CCF6E9, 0xAAF95334, 0x6252E503, 0x9F2EC686,
     0x57FE6C2D, 0xA3D95FA8, 0x81FDBEE7, 0x94F0AF1A, 0xCBF633B1] := by decide +kernel

/-! `solvi/src/decomposition/sparse/cholesky.rs:602-796` -/

def davis : SparseStructure := ⟨23, 12,
  [0, 1, 2, 0, 2, 3, 4, 5, 6, 7, 8, 9, 10, 11, 12, 13, 14, 12, 13, 14, 15, 16, 17, 1, 3, 4, 6, 8, 16, 17, 18, 19,
   6, 9, 10, 12, 15, 18, 20, 21, 0, 2, 5, 8, 9, 15, 17, 19, 21, 22, 12, 13, 17, 18, 21, 22, 22,
   1, 2, 3, 4, 11, 13, 14, 15, 17, 20, 21, 22, 6, 7, 15, 16, 18, 19, 20, 21, 22],
  [0, 3, 8, 13, 17, 23, 32, 40, 50, 56, 57, 69, 78]⟩

/-- The tests' computation: the tree, the counts and the row indices of `L`. -/
def factor (a : SparseStructure) : R (List (Option Nat) × List Nat × List Nat × List Nat) := do
  let parents ← eliminationTree false a
  let post ← postOrder parents
  let counts ← CholeskyCounts.build a parents post
  let s ← CholeskyStructure.build a parents post counts
  pure (parents, counts.rowCounts, counts.colCounts, s.lStructure.rowIndices)

example : factor davis = .ok (
    [some 1, some 5, some 5, some 4, some 5, some 6, some 7, some 8, some 9, some 10, some 11, none],
    [5, 4, 5, 5, 7, 6, 5, 5, 4, 3, 2, 1],
    [1, 2, 1, 1, 2, 5, 5, 7, 6, 3, 10, 9],
    [0, 0, 1, 2, 3, 3, 4, 0, 1, 2, 4, 5, 2, 3, 4, 5, 6, 0, 1, 2, 4, 5, 6, 7, 3, 4, 5, 6, 7, 8, 7, 8, 9,
     0, 1, 3, 4, 5, 6, 7, 8, 9, 10, 2, 4, 5, 6, 7, 8, 9, 10, 11]) := by decide +kernel

example : (factor ⟨3, 3, [0, 1, 2, 0, 1, 2, 0, 1, 2], [0, 3, 6, 9]⟩).map (·.2) =
    .ok ([3, 2, 1], [1, 2, 3], [0, 0, 1, 0, 1, 2]) := by decide +kernel

example : (factor ⟨10, 6, [0, 4, 0, 5, 0, 1, 6, 0, 1, 7, 1, 2, 8, 1, 3, 9], [0, 2, 4, 7, 10, 13, 16]⟩).map (·.2.2.2) =
    .ok [0, 0, 1, 0, 1, 2, 0, 1, 2, 3, 2, 3, 4, 2, 3, 4, 5] := by decide +kernel

/-! `solvi/src/permutation.rs:96-125` -/

example : ([[], [0], [0, 5, 4, 1, 2, 3], [0, 1, 2, 3, 4], [4, 3, 2, 1, 0]] : List (List Nat)).all (fun seq =>
    match (do (← PermutationSequence.buildForGather seq).permuteSlice (List.range seq.length) : R (List Nat)) with
    | .ok l => l == seq
    | .error _ => false) = true := by decide +kernel

example : (PermutationSequence.buildForGather [0, 1, 2, 3, 4, 5, 6, 7]).map (·.swapSequence) = .ok [] := by decide +kernel

example : (PermutationSequence.buildForGather [0, 1, 5, 7, 4, 2, 6, 3]).map (·.swapSequence.length) = .ok 2 := by decide +kernel

/-! `solvi/src/triplet_mat.rs:181-193` -/

example :
    let a : TripletMat Int := (TripletMat.new 0 0).push 3 5 1
    let b := a.push 7 3 1
    let c := b.push 1 10 1
    (a.nrows, a.ncols, b.nrows, b.ncols, c.nrows, c.ncols) = (4, 6, 8, 6, 8, 11) := by decide +kernel

/-! `solvi/src/sparse_col_mat.rs:870-918` -/

example : (SparseStructure.tryFromData 4 5 [0, 1, 1, 2, 1, 2, 3] [0, 1, 2, 4, 4, 7]).map (fun | .ok _ => true | .error _ => false) = .ok true := by
  decide +kernel

example : (SparseStructure.tryFromData 4 5 [0, 1, 1, 2, 1, 2, 3] [0, 1, 3, 4, 4, 7]).map (fun | .ok _ => true | .error _ => false) = .ok false := by
  decide +kernel

example : (SparseStructure.tryFromData 4 5 [0, 1, 1, 2, 1, 2, 3] [0, 1, 3, 4, 4, 5]).map (fun | .ok _ => true | .error _ => false) = .ok false := by
  decide +kernel

example : (SparseStructure.tryFromData 4 5 [0, 10, 1, 2, 1, 2, 3] [0, 1, 2, 4, 4, 7]).map (fun | .ok _ => true | .error _ => false) = .ok false := by
  decide +kernel

/-! `colamd_rs/src/lib.rs:252-320`. Integers stand for floats here: the thresholds `10 * sqrt(n)` only have to exceed all degrees. -/

local instance : FloatOps Int where
  sqrt x := Int.ofNat (Nat.sqrt x.toNat)
  atan2 x _ := x
  sin x := x
  cos x := x
  abs x := x.natAbs
  signum x := x.sign
  pi := 3
  ofNat n := n
  ltB a b := decide (a < b)
  eqB a b := decide (a = b)

example : (colamd (F := Int) id ⟨10, 10, true⟩ 5 4 ([0, 1, 4, 2, 4, 0, 1, 2, 3, 1, 3] ++ List.replicate 89 0) [0, 3, 5, 9, 11]).map (·.2) =
    .ok (some [1, 0, 2, 3, -1]) := by decide +kernel

example : (colamd (F := Int) id ⟨10, 10, false⟩ 4 3 ([0, 1, 2, 1, 0, 1, 3] ++ List.replicate (((colamdRecommended 7 4 3).getD 0) - 7) 0)
    [0, 3, 4, 7]).map (·.2) = .ok (some [1, 2, 0, -1]) := by decide +kernel

example : (symamd (F := Int) id ⟨10, 10, true⟩ 5 [1, 2, 3, 4] [0, 1, 3, 3, 4, 4] [0, 0, 0, 0, 0, 0]).map (·.2) =
    .ok (some [0, 2, 1, 3, 4, -1]) := by decide +kernel

example : (symamd (F := Int) id ⟨10, 10, true⟩ 5 [0, 1, 2, 3, 1, 4, 0, 3, 4] [0, 2, 4, 5, 6, 9] [0, 0, 0, 0, 0, 0]).map (·.2) =
    .ok (some [0, 2, 1, 3, 4, -1]) := by decide +kernel

end Fiksi.Tests
