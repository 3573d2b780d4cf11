import Verif.Proofs.PermuteColumns
import Verif.Proofs.EliminationTree
/-!
# Structures given column by column
-/
namespace Fiksi

open Spec

/-- The structure with the given columns, as `CholeskyStructure::build` puts it together. -/
def ofColumns (nrows : Nat) (cols : List (List Nat)) : SparseStructure :=
  ⟨nrows, cols.length, cols.flatten, 0 :: prefixSumFrom 0 (cols.map List.length)⟩

theorem prefixSumFrom_length (l : List Nat) : ∀ s, (prefixSumFrom s l).length = l.length := by
  induction l with
  | nil => intro s; rfl
  | cons v vs ih => intro s; simp [prefixSumFrom, ih]

theorem prefixSumFrom_getElem? (cols : List (List Nat)) : ∀ (s j : Nat), j < cols.length →
    (prefixSumFrom s (cols.map List.length))[j]? = some (s + (cols.take (j + 1)).flatten.length) := by
  induction cols with
  | nil => intro s j hj; simp at hj
  | cons c cols ih =>
    intro s j hj
    cases j with
    | zero => simp [prefixSumFrom]
    | succ j =>
      simp only [List.map_cons, prefixSumFrom, List.getElem?_cons_succ, List.take_succ_cons, List.flatten_cons, List.length_append]
      rw [ih _ j (by simpa using hj)]
      congr 1
      omega

theorem ofColumns_pointer (nrows : Nat) (cols : List (List Nat)) {j : Nat} (hj : j ≤ cols.length) :
    (ofColumns nrows cols).columnPointers[j]? = some (cols.take j).flatten.length := by
  cases j with
  | zero => simp [ofColumns]
  | succ j =>
    simp only [ofColumns, List.getElem?_cons_succ]
    rw [prefixSumFrom_getElem? _ _ _ (by omega), Nat.zero_add]

theorem ofColumns_slice (cols : List (List Nat)) {j : Nat} {l : List Nat} (hl : cols[j]? = some l) :
    (cols.flatten.drop (cols.take j).flatten.length).take ((cols.take (j + 1)).flatten.length - (cols.take j).flatten.length) = l := by
  obtain ⟨hj, hlj⟩ := List.getElem?_eq_some_iff.1 hl
  have h1 : cols = cols.take j ++ l :: cols.drop (j + 1) := by
    rw [← hlj, List.getElem_cons_drop, List.take_append_drop]
  have h2 : (cols.take (j + 1)).flatten = (cols.take j).flatten ++ l := by
    rw [List.take_succ, hl]
    simp
  have h3 : cols.flatten = (cols.take j).flatten ++ (l ++ (cols.drop (j + 1)).flatten) := by
    conv_lhs => rw [h1]
    simp
  rw [h3, h2, List.drop_left, List.length_append]
  simp

theorem ofColumns_wellFormed {nrows : Nat} {cols : List (List Nat)} (hs : ∀ l ∈ cols, l.Pairwise (· < ·)) (hb : ∀ l ∈ cols, ∀ i ∈ l, i < nrows) :
    WellFormed (ofColumns nrows cols) := by
  refine wellFormed_of_columns (by simp [prefixSumFrom_length]) (by rfl) ?_ ?_
  · have := ofColumns_pointer nrows cols (j := cols.length) le_rfl
    rw [List.take_length] at this
    exact this
  · intro j a b ha hb'
    have hj : j < cols.length := by
      have := (List.getElem?_eq_some_iff.1 hb').1
      simp [prefixSumFrom_length] at this
      exact this
    have h1 := ofColumns_pointer nrows cols (j := j) (by omega)
    have h2 := ofColumns_pointer nrows cols (j := j + 1) (by omega)
    simp only [ofColumns] at h1 h2
    rw [h1] at ha
    rw [h2] at hb'
    obtain rfl := Option.some.inj ha
    obtain rfl := Option.some.inj hb'
    have hl : cols[j]? = some cols[j] := List.getElem?_eq_getElem hj
    have hsl := ofColumns_slice cols hl
    refine ⟨?_, ?_, ?_⟩
    · rw [List.take_succ, hl, Option.toList_some, List.flatten_append, List.length_append]; omega
    · intro p r hp1 hp2 hr
      have : r ∈ cols[j] := by rw [← hsl]; exact mem_slice.2 ⟨p, hp1, hp2, hr⟩
      exact hb _ (List.getElem_mem hj) r this
    · have := hs _ (List.getElem_mem hj)
      rw [← hsl] at this
      exact sorted_slice.1 this

theorem ofColumns_columnRows {nrows : Nat} {cols : List (List Nat)} {j : Nat} {l : List Nat} (hl : cols[j]? = some l) :
    columnRows (ofColumns nrows cols) j = l := by
  have hj := (List.getElem?_eq_some_iff.1 hl).1
  rw [columnRows, List.getD_eq_getElem?_getD, List.getD_eq_getElem?_getD, ofColumns_pointer _ _ (by omega), ofColumns_pointer _ _ (by omega)]
  exact ofColumns_slice cols hl

theorem ofColumns_has {nrows : Nat} {cols : List (List Nat)} (hw : WellFormed (ofColumns nrows cols)) {i j : Nat} :
    Has (ofColumns nrows cols) i j ↔ ∃ l, cols[j]? = some l ∧ i ∈ l := by
  constructor
  · intro h
    have hj : j < cols.length := (h.lt hw).2
    exact ⟨_, List.getElem?_eq_getElem hj, by
      rw [← ofColumns_columnRows (nrows := nrows) (List.getElem?_eq_getElem hj)]
      exact (hw.mem_columnRows hj).2 h⟩
  · rintro ⟨l, hl, hi⟩
    rw [← ofColumns_columnRows (nrows := nrows) hl] at hi
    exact (hw.mem_columnRows (List.getElem?_eq_some_iff.1 hl).1).1 hi

end Fiksi
