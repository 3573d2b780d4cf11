import Verif.Model.Sparse
import Mathlib.Algebra.BigOperators.Group.List.Basic
/-!
# What sparse matrices mean
-/
namespace Fiksi.Spec

/-- A well-formed sparse column structure, as described in the documentation (`sparse_col_mat.rs:145-189`): one pointer per column
and one more, starting at 0, ending at the number of entries, non-decreasing; all rows in range, strictly increasing in each column. -/
structure WellFormed (s : SparseStructure) : Prop where
  count : s.columnPointers.length = s.ncols + 1
  first : s.columnPointers[0]? = some 0
  last : s.columnPointers[s.ncols]? = some s.rowIndices.length
  mono : ∀ (j a b : Nat), s.columnPointers[j]? = some a → s.columnPointers[j + 1]? = some b → a ≤ b
  bound : ∀ r ∈ s.rowIndices, r < s.nrows
  sorted : ∀ (j a b : Nat), s.columnPointers[j]? = some a → s.columnPointers[j + 1]? = some b →
    ∀ (p q r t : Nat), a ≤ p → p < q → q < b → s.rowIndices[p]? = some r → s.rowIndices[q]? = some t → r < t

/-- Position `p` holds an entry of row `i` and column `j`. -/
def EntryAt (s : SparseStructure) (i j p : Nat) : Prop :=
  ∃ start stop, s.columnPointers[j]? = some start ∧ s.columnPointers[j + 1]? = some stop ∧ start ≤ p ∧ p < stop ∧
    s.rowIndices[p]? = some i

/-- The structure has an entry in row `i` and column `j`. -/
def Has (s : SparseStructure) (i j : Nat) : Prop := ∃ p, EntryAt s i j p

/-- The matrix stores the value `v` in row `i` and column `j`. -/
def Stored {T : Type} (a : SparseColMat T) (i j : Nat) (v : T) : Prop := ∃ p, EntryAt a.structure' i j p ∧ a.values[p]? = some v

/-- A well-formed matrix: its structure is, and it has one value per entry. -/
def MatWellFormed {T : Type} (a : SparseColMat T) : Prop := WellFormed a.structure' ∧ a.values.length = a.structure'.rowIndices.length

/-- The three arrays of the triplets have the same length and the indices are in range. -/
structure TripletsOk {T : Type} (a : TripletMat T) : Prop where
  rows : a.rowIndices.length = a.values.length
  cols : a.colIndices.length = a.values.length
  rowBound : ∀ r ∈ a.rowIndices, r < a.nrows
  colBound : ∀ c ∈ a.colIndices, c < a.ncols

/-- The values of the triplets at a position. -/
def tripletValues {T : Type} (a : TripletMat T) (i j : Nat) : List T :=
  (a.triplets.filter (fun t => t.1 = i ∧ t.2.1 = j)).map (fun t => t.2.2)

/-- The sum of a list of values, from left to right; `none` if it is empty. -/
def sumList {T : Type} [Add T] : List T → Option T
  | [] => none
  | v :: vs => some (vs.foldl (· + ·) v)

/-- The routine sorts: it permutes, and the keys of the result are in lexicographic order. -/
def Sorts (sort : SortByKey) : Prop :=
  ∀ key l, (sort key l).Perm l ∧
    (sort key l).Pairwise (fun a b => (key a).1 < (key b).1 ∨ ((key a).1 = (key b).1 ∧ (key a).2 ≤ (key b).2))

/-- The matrix with entries `U` is stored; positions without an entry are zero. -/
structure Represents {T : Type} [Zero T] (a : SparseColMat T) (U : Nat → Nat → T) : Prop where
  stored : ∀ i j v, Stored a i j v → U i j = v
  zero : ∀ i j, ¬ Has a.structure' i j → U i j = 0

end Fiksi.Spec
