import Verif.Model.QrColamd
import Verif.Props.ColamdOrdering
import Verif.Proofs.QrBuild
/-!
# The column ordering of the sparse QR is a permutation
-/
namespace Fiksi
open Spec

variable {F : Type} [Mul F] [Zero F] [FloatOps F]

/-- The length of the workspace that `colamd` needs for a matrix. -/
def Spec.workspace (rows cols entries : Nat) : Nat := 2 * entries + 6 * (cols + 1) + 4 * (rows + 1) + cols + entries / 5

theorem usizeAs_natCast {n : Nat} (h : n < 2 ^ 64) : usizeAs (n : Int) = n := by
  unfold usizeAs
  omega

theorem getD_map_cast {l : List Nat} {f : Nat → Int} (h : ∀ x ∈ l, f x = x) (i : Nat) : (l.map f).getD i 0 = ((l.getD i 0 : Nat) : Int) := by
  rw [List.getD_eq_getElem?_getD, List.getD_eq_getElem?_getD, List.getElem?_map]
  cases hi : l[i]? with
  | none => simp only [Option.map_none, Option.getD_none, Nat.cast_zero]
  | some x =>
    simp only [Option.map_some, Option.getD_some]
    exact h x (List.mem_of_getElem? hi)

theorem map_asI32 {l : List Nat} (h : ∀ x ∈ l, x < 2 ^ 31) : ∃ l' : List Int, l.map asI32 = l' ∧ l'.length = l.length ∧
    ∀ i : Nat, l'.getD i 0 = ((l.getD i 0 : Nat) : Int) :=
  ⟨_, rfl, List.length_map _, getD_map_cast fun x hx => asI32_of (h x hx)⟩

theorem i32OfUsize_of {n : Nat} (h : n < 2 ^ 31) : i32OfUsize n = .ok (n : Int) := by
  unfold i32OfUsize
  rw [if_pos h]

theorem usizeAs_take {perm : List Int} {n : Nat} (hl : perm.length = n) (hn : n < 2 ^ 29) (h : perm.Perm (span 0 ((n : Int)).toNat)) :
    (((perm ++ [-1]).map usizeAs).take n).Perm (List.range n) := by
  rw [List.map_append, List.take_left' (by rw [List.length_map, hl])]
  refine (h.map usizeAs).trans ?_
  unfold span
  rw [List.map_map, Int.toNat_natCast]
  refine List.Perm.of_eq ?_
  conv_rhs => rw [← List.map_id (List.range n)]
  refine List.map_congr_left (fun x hx => ?_)
  have := List.mem_range.1 hx
  rw [Function.comp, zero_add, id]
  exact usizeAs_natCast (by omega)

theorem recommended_of {a : SparseStructure} (h1 : a.rowIndices.length < 2 ^ 31) (h2 : a.nrows < 2 ^ 31) (h3 : a.ncols < 2 ^ 31) :
    colamdRecommended (a.rowIndices.length : Int) (a.nrows : Int) (a.ncols : Int) = some (workspace a.nrows a.ncols a.rowIndices.length) := by
  unfold workspace
  rw [colamdRecommended_of (by omega) (by omega) (by omega) (by omega) (by omega) (by omega)]
  simp only [Int.toNat_natCast]

/-- A structure as `colamd` sees it. -/
theorem Spec.WellFormed.columnForm {a : SparseStructure} (ha : WellFormed a) {A P : Int → Int}
    (hA : ∀ i : Nat, i < a.rowIndices.length → A i = ((a.rowIndices.getD i 0 : Nat) : Int))
    (hP : ∀ i : Nat, i ≤ a.ncols → P i = ((a.columnPointers.getD i 0 : Nat) : Int)) :
    ColumnForm A P a.nrows a.ncols ∧ SortedColumns A P a.ncols := by
  have hP' : ∀ c : Int, 0 ≤ c → c ≤ a.ncols → P c = ((a.columnPointers.getD c.toNat 0 : Nat) : Int) := fun c c0 c1 => by
    rw [← hP c.toNat (by omega), show ((c.toNat : Nat) : Int) = c by omega]
  have hA' : ∀ i : Int, 0 ≤ i → i < a.rowIndices.length → A i = ((a.rowIndices.getD i.toNat 0 : Nat) : Int) := fun c c0 c1 => by
    rw [← hA c.toNat (by omega), show ((c.toNat : Nat) : Int) = c by omega]
  have hlast : P a.ncols = a.rowIndices.length := by rw [hP _ (le_refl _), ha.pointer_last]
  refine ⟨⟨by omega, by omega, ?_, ?_, ?_⟩, ?_⟩
  · have := hP 0 (by omega)
    rw [ha.pointer_zero] at this
    exact this
  · intro c c0 c1
    rw [hP' c c0 (by omega), hP' (c + 1) (by omega) (by omega)]
    have := ha.pointer_mono (i := c.toNat) (j := (c + 1).toNat) (by omega) (by omega)
    omega
  · intro i i0 i1
    rw [hlast] at i1
    rw [hA' i i0 i1]
    have hi : i.toNat < a.rowIndices.length := by omega
    have := ha.bound (a.rowIndices.getD i.toNat 0) (by
      rw [List.getD_eq_getElem?_getD, List.getElem?_eq_getElem hi]
      exact List.getElem_mem hi)
    omega
  · intro c c0 c1 i j h1 h2 h3
    have k1 := ha.pointer (j := c.toNat) (by omega)
    have k2 := ha.pointer (j := c.toNat + 1) (by omega)
    have k3 := ha.pointer_le (j := c.toNat + 1) (by omega)
    rw [hP' c c0 (by omega)] at h1
    rw [hP' (c + 1) (by omega) (by omega), show (c + 1).toNat = c.toNat + 1 by omega] at h3
    have hi : i.toNat < a.rowIndices.length := by omega
    have hj : j.toNat < a.rowIndices.length := by omega
    rw [hA' i (by omega) (by omega), hA' j (by omega) (by omega)]
    have := ha.sorted c.toNat _ _ k1 k2 i.toNat j.toNat (a.rowIndices.getD i.toNat 0) (a.rowIndices.getD j.toNat 0) (by omega) (by omega) (by omega)
      (by rw [List.getD_eq_getElem?_getD, List.getElem?_eq_getElem hi]; rfl) (by rw [List.getD_eq_getElem?_getD, List.getElem?_eq_getElem hj]; rfl)
    omega

/-- What `SymbolicQr::build` does with the result of `colamd`, `qr.rs:164-165`. -/
def takePermutation (n : Nat) (r : Except ColamdError ColamdStatistics × Option (List Int)) : R (List Nat) :=
  match r.1 with
  | .error _ => .error .unwrapNone
  | .ok _ => do
    let p ← unwrap r.2
    pure ((p.map usizeAs).take n)

theorem colamdOfStructure_eq (cast : F → Int) {a : SparseStructure} {nnz nRow nCol : Int} {len : Nat} {rs ps : List Int}
    (i1 : i32OfUsize a.rowIndices.length = .ok nnz) (i2 : i32OfUsize a.nrows = .ok nRow) (i3 : i32OfUsize a.ncols = .ok nCol)
    (hrec : colamdRecommended nnz nRow nCol = some len) (hrs : a.rowIndices.map asI32 = rs) (hps : a.columnPointers.map asI32 = ps) :
    colamdOfStructure cast a = (colamd cast (ColamdOptions.default : ColamdOptions F) nRow nCol (rs.take len ++ List.replicate (len - a.rowIndices.length) 0) ps) >>=
      takePermutation a.ncols := by
  unfold colamdOfStructure
  rw [i1, ok_bind, i2, ok_bind, i3, ok_bind, hrec, hrs, hps]
  simp only [unwrap, ok_bind]
  rfl

/-- The data that `colamd` is called with for a structure. -/
theorem colamdOfStructure_data (cast : F → Int) {a : SparseStructure} (ha : WellFormed a) (hz : a.rowIndices.length < 2 ^ 31) (hr : a.nrows < 2 ^ 31)
    (hc : a.ncols < 2 ^ 31) : ∃ A P : List Int, (∀ i : Nat, i < a.rowIndices.length → (Mem.ofList A 0).get i = ((a.rowIndices.getD i 0 : Nat) : Int)) ∧
      (∀ i : Nat, i ≤ a.ncols → (Mem.ofList P 0).get i = ((a.columnPointers.getD i 0 : Nat) : Int)) ∧
      A.length = workspace a.nrows a.ncols a.rowIndices.length ∧ P.length = a.ncols + 1 ∧
      ColumnForm (Mem.ofList A 0).get (Mem.ofList P 0).get a.nrows a.ncols ∧ SortedColumns (Mem.ofList A 0).get (Mem.ofList P 0).get a.ncols ∧
      (Mem.ofList P 0).get a.ncols = a.rowIndices.length ∧
      colamdOfStructure cast a = colamd cast (ColamdOptions.default : ColamdOptions F) a.nrows a.ncols A P >>= takePermutation a.ncols := by
  have hrec := recommended_of hz hr hc
  have hlen : workspace a.nrows a.ncols a.rowIndices.length = 2 * a.rowIndices.length + 6 * (a.ncols + 1) + 4 * (a.nrows + 1) + a.ncols + a.rowIndices.length / 5 := rfl
  obtain ⟨len, hl⟩ : ∃ len, workspace a.nrows a.ncols a.rowIndices.length = len := ⟨_, rfl⟩
  rw [hl] at hrec hlen ⊢
  have hbound : ∀ x ∈ a.rowIndices, x < 2 ^ 31 := fun x hx => by
    have := ha.bound x hx
    omega
  have hpbound : ∀ x ∈ a.columnPointers, x < 2 ^ 31 := fun x hx => by
    obtain ⟨j, hj⟩ := List.mem_iff_getElem?.1 hx
    have hj' := (List.getElem?_eq_some_iff.1 hj).1
    rw [ha.count] at hj'
    have h1 := ha.pointer_le (j := j) (by omega)
    rw [List.getD_eq_getElem?_getD, hj, Option.getD_some] at h1
    omega
  obtain ⟨rs, hrs, hrsl, hrsg⟩ := map_asI32 hbound
  obtain ⟨ps, hps, hpsl, hpsg⟩ := map_asI32 hpbound
  have hcall := colamdOfStructure_eq cast (i32OfUsize_of hz) (i32OfUsize_of hr) (i32OfUsize_of hc) hrec hrs hps
  obtain ⟨A, hA⟩ : ∃ A, rs.take len ++ List.replicate (len - a.rowIndices.length) 0 = A := ⟨_, rfl⟩
  rw [hA] at hcall
  have hAlen : A.length = len := by
    rw [← hA, List.length_append, List.length_take, List.length_replicate]
    omega
  have hAg : ∀ i : Nat, i < a.rowIndices.length → (Mem.ofList A 0).get i = ((a.rowIndices.getD i 0 : Nat) : Int) := fun i hi => by
    rw [Mem.ofList_get, ← hrsg, ← hA, List.getD_eq_getElem?_getD, List.getD_eq_getElem?_getD,
      List.getElem?_append_left (by rw [List.length_take]; omega), List.getElem?_take_of_lt (by omega)]
  have hPg : ∀ i : Nat, i ≤ a.ncols → (Mem.ofList ps 0).get i = ((a.columnPointers.getD i 0 : Nat) : Int) := fun i hi => by rw [Mem.ofList_get, hpsg]
  obtain ⟨k1, k2⟩ := ha.columnForm hAg hPg
  exact ⟨A, ps, hAg, hPg, hAlen, hpsl.trans ha.count, k1, k2, by rw [Mem.ofList_get, hpsg, ha.pointer_last], hcall⟩

/-- The call of `colamd` for a structure. -/
theorem colamdOfStructure_call (cast : F → Int) {a : SparseStructure} (ha : WellFormed a) (hz : a.rowIndices.length < 2 ^ 31) (hr : a.nrows < 2 ^ 31)
    (hc : a.ncols < 2 ^ 31) : ∃ A P : List Int, A.length = workspace a.nrows a.ncols a.rowIndices.length ∧ P.length = a.ncols + 1 ∧
      ColumnForm (Mem.ofList A 0).get (Mem.ofList P 0).get a.nrows a.ncols ∧ SortedColumns (Mem.ofList A 0).get (Mem.ofList P 0).get a.ncols ∧
      (Mem.ofList P 0).get a.ncols = a.rowIndices.length ∧
      colamdOfStructure cast a = colamd cast (ColamdOptions.default : ColamdOptions F) a.nrows a.ncols A P >>= takePermutation a.ncols :=
  (colamdOfStructure_data cast ha hz hr hc).imp fun _ h => h.imp fun _ h => h.2.2

/-- The ordering computed for the sparse QR is a permutation of the columns, if the workspace has fewer than 2^31 entries. -/
theorem colamdOfStructure_orders (cast : F → Int) {a : SparseStructure} (ha : WellFormed a)
    (hfit : workspace a.nrows a.ncols a.rowIndices.length < 2 ^ 31) :
    OrdersColumns (colamdOfStructure cast) a := by
  have hfit' := hfit
  unfold workspace at hfit'
  have hlen : workspace a.nrows a.ncols a.rowIndices.length = 2 * a.rowIndices.length + 6 * (a.ncols + 1) + 4 * (a.nrows + 1) + a.ncols + a.rowIndices.length / 5 := rfl
  obtain ⟨A, P, h1, h2, h3, h4, h5, h6⟩ := colamdOfStructure_call cast ha (by omega) (by omega) (by omega)
  obtain ⟨_, _, _, perm, e, hperm⟩ := C55_colamd_permutation cast (ColamdOptions.default : ColamdOptions F) (nnz := (a.rowIndices.length : Int)) h3 h4
    (by omega) h5 (by omega) (by omega) (by omega) (by omega) (by omega)
  refine ⟨((perm ++ [-1]).map usizeAs).take a.ncols, by rw [h6, e, ok_bind]; rfl, ?_⟩
  have hl : perm.length = a.ncols := by rw [hperm.length_eq]; simp [span]
  exact usizeAs_take hl (by omega) hperm

end Fiksi
