import Verif.Proofs.QrColamd
import Verif.Props.Qr
/-!
# C57: when `SymbolicQr::build` panics

`qr.rs:115-116` documents a panic if the dimensions or the number of entries exceed `i32::MAX`. `colamd` computes twice the number of entries as an
`i32`, so it fails from 2^30 entries on.
-/
namespace Fiksi
open Spec

variable {F : Type} [Mul F] [Zero F] [FloatOps F]

/-- `2 * nnz` in `colamd` (`colamd.rs:485`) overflows from 2^30 entries on. -/
theorem colamdMain_overflows (cast : F → Int) (options : ColamdOptions F) {nRow nCol nnz : Int} {a p : List Int}
    (h : ColumnForm (Mem.ofList a 0).get (Mem.ofList p 0).get nRow nCol) (hs : SortedColumns (Mem.ofList a 0).get (Mem.ofList p 0).get nCol)
    (hp : (p.length : Int) = nCol + 1) (hnnz : (Mem.ofList p 0).get nCol = nnz) (hr : nRow < 2 ^ 31) (hc : 4 * nCol + 8 < 2 ^ 31) (hz : 2 ^ 31 ≤ 2 * nnz)
    (hz' : nnz < 2 ^ 31) (hlen : 2 * nnz + nCol + 6 * (nCol + 1) + 4 * (nRow + 1) ≤ a.length) :
    colamdMain cast options nRow nCol a p = .error .overflow := by
  have n0 := h.cols
  have m0 := h.rows
  have hget : ∀ i : Nat, (i : Int) ≤ nCol → p[i]? = some ((Mem.ofList p 0).get i) := fun i hi => by
    rw [Mem.ofList_get, List.getD_eq_getElem?_getD, List.getElem?_eq_getElem (by omega)]
    rfl
  have hchk := colamdChecks_of (a := a) (p := p) (nnz := nnz) m0 hr n0 (by omega) (by
    rw [hget _ (by omega), show ((nCol.toNat : Nat) : Int) = nCol by omega, hnnz]) (by omega) (by omega) (by
    have := hget 0 (by omega)
    rw [this]
    have := h.first
    simp only [Nat.cast_zero, this]) (by omega)
  obtain ⟨s1, s2, s3, s4⟩ := splitBuffer_sizes a p nCol.toNat nRow.toNat
  set b := splitBuffer a p (6 * (nCol.toNat + 1)) (4 * (nRow.toNat + 1)) with hb
  have hhead : b.head.get = (Mem.ofList p 0).get := rfl
  have hA : ∀ i, 0 ≤ i → i < (Mem.ofList p 0).get nCol → b.a.get i = (Mem.ofList a 0).get i := fun i i0 i1 => by
    rw [show i = ((i.toNat : Nat) : Int) by omega, hb, splitBuffer_a _ _ _ _ _ (by omega), Mem.ofList_get]
  have h' := h.congr hA
  have hs' := SortedColumns.congr h hs hA
  obtain ⟨b1, e1, q1, q2, q3, q4, q5, q6, q7, q8⟩ := initRowsCols_of (b := b) (stats := ColamdStats.start) h' hs' rfl hhead (by omega) (by omega) (by omega) (by omega) (by omega)
    (by omega) (by decide)
  have hst := Amd.start_of h' hs' q5 q6 q7 q8 ⟨hr, hc, by omega⟩
  rw [hnnz] at hst
  obtain ⟨b2, nRow2, n2, maxDeg, e2, -⟩ := Amd.initScoring_of (denseRow := denseRowCount cast options nCol)
    (denseCol := denseColCount cast options nRow nCol) hst (by omega) (by omega) (by omega) (by rw [q1]; omega)
    (aLen := 2 * nnz) (by omega) (by omega)
  have hmul : mulI32 2 nnz = .error .overflow := if_neg (by omega)
  unfold colamdMain
  rw [hchk, ok_bind]
  simp only
  unfold colamdOrder
  rw [← hb, e1, ok_bind]
  simp only
  rw [e2, ok_bind]
  simp only
  rw [hmul]
  rfl

/-- C57 is false from 2^30 entries on: `SymbolicQr::build` with the default ordering fails on every structure with that many entries (and fewer
than 2^29 - 2 columns). -/
theorem C57_build_overflows (cast : F → Int) {a : SparseStructure} (ha : WellFormed a) (hz : 2 ^ 30 ≤ a.rowIndices.length)
    (hz' : a.rowIndices.length < 2 ^ 31) (hr : a.nrows < 2 ^ 31) (hc : 4 * a.ncols + 8 < 2 ^ 31) :
    SymbolicQr.build (colamdOfStructure cast) a .colamd = .error .overflow := by
  have hlen : workspace a.nrows a.ncols a.rowIndices.length = 2 * a.rowIndices.length + 6 * (a.ncols + 1) + 4 * (a.nrows + 1) + a.ncols + a.rowIndices.length / 5 := rfl
  obtain ⟨A, P, h1, h2, h3, h4, h5, h6⟩ := colamdOfStructure_call cast ha (by omega) (by omega) (by omega)
  have e := colamdMain_overflows cast (ColamdOptions.default : ColamdOptions F) (nnz := (a.rowIndices.length : Int)) h3 h4
    (by omega) h5 (by omega) (by omega) (by omega) (by omega) (by omega)
  have hcol : colamd cast (ColamdOptions.default : ColamdOptions F) a.nrows a.ncols A P = .error .overflow := by
    unfold colamd
    rw [assertPointers_of (by omega) (by omega) (by omega), ok_bind, e]
    rfl
  rw [SymbolicQr.build, orderColumns, h6, hcol]
  rfl

/-- C57 (partial): `SymbolicQr::build` does not panic on a structure of full structural column rank if the workspace of `colamd` has fewer than 2^31
entries, for either ordering. (Full statement: if the dimensions and the number of entries are at most `i32::MAX`; false, `C57_build_overflows`.) -/
theorem C57_build_partial (cast : F → Int) {a : SparseStructure} (ha : WellFormed a) (hr : FullRank a)
    (hfit : workspace a.nrows a.ncols a.rowIndices.length < 2 ^ 31) (ordering : QrOrdering) :
    ∃ s, SymbolicQr.build (colamdOfStructure cast) a ordering = .ok s ∧ s.colPermutation.Perm (List.range a.ncols) := by
  obtain ⟨s, pa, S, h1, o, -⟩ := build_spec (colamdOfStructure_orders cast ha hfit) ha hr ordering
  exact ⟨s, h1, o.perm⟩

/-- Case for `C57_build_overflows`: one column with 2^30 rows, all of them entries. -/
example : ∃ a : SparseStructure, WellFormed a ∧ FullRank a ∧ a.rowIndices.length = 2 ^ 30 ∧ a.nrows = 2 ^ 30 ∧ a.ncols = 1 := by
  have key : ∀ n : Nat, 0 < n → ∃ a : SparseStructure, WellFormed a ∧ FullRank a ∧ a.rowIndices.length = n ∧ a.nrows = n ∧ a.ncols = 1 := by
    intro n hn
    refine ⟨⟨n, 1, List.range n, [0, n]⟩, ⟨rfl, rfl, by simp, ?_, by simp, ?_⟩, ⟨fun _ => 0, ?_, fun c c' h1 h2 _ => ?_⟩, by simp, rfl, rfl⟩
    · intro j a b h1 h2
      rcases j with _ | j
      · simp at h1 h2; omega
      · simp at h2
    · intro j a b h1 h2 p q r t hp hq hb hr ht
      rcases j with _ | j
      · simp at h1 h2
        subst h1 h2
        rw [List.getElem?_range (by omega)] at hr ht
        cases hr
        cases ht
        exact hq
      · simp at h2
    · intro c hc
      obtain rfl : c = 0 := by simp at hc; omega
      exact ⟨0, 0, n, rfl, rfl, le_refl _, hn, by rw [List.getElem?_range hn]⟩
    · simp at h1 h2
      omega
  exact key (2 ^ 30) (by norm_num)

end Fiksi
