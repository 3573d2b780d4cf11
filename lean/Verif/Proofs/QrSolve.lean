import Verif.Proofs.QrColumn
import Verif.Props.Permutation
import Verif.Props.Sparse
import Mathlib.LinearAlgebra.Matrix.Block
import Mathlib.LinearAlgebra.Matrix.ToLinearEquiv
/-!
# Solving with the factorisation
-/
namespace Fiksi

open Spec

/-- The entries of `R`. -/
noncomputable def rEntry (r : SparseStructure) (rv : List ℝ) (t j : Nat) : ℝ := sparseAt (columnRows r j) (colVals r rv j) t

theorem columnRows_out {r : SparseStructure} (hr : WellFormed r) {j : Nat} (hj : r.ncols ≤ j) : columnRows r j = [] := by
  rw [columnRows]
  have : r.columnPointers.getD (j + 1) 0 = 0 := by
    rw [List.getD_eq_getElem?_getD, List.getElem?_eq_none (by rw [hr.count]; omega)]
    rfl
  rw [this]
  simp

theorem rEntry_represents {r : SparseStructure} (hr : WellFormed r) {rv : List ℝ} (hlen : rv.length = r.rowIndices.length) :
    MatWellFormed (⟨r, rv⟩ : SparseColMat ℝ) ∧ Represents (⟨r, rv⟩ : SparseColMat ℝ) (rEntry r rv) := by
  have hm : MatWellFormed (⟨r, rv⟩ : SparseColMat ℝ) := ⟨hr, hlen⟩
  refine ⟨hm, ?_, ?_⟩
  · intro i j v hst
    have hj : j < r.ncols := by
      obtain ⟨p, ⟨start, stop, h1, h2, -⟩, -⟩ := hst
      have := (List.getElem?_eq_some_iff.1 h2).1
      rw [hr.count] at this
      omega
    rw [hm.stored_iff hj, List.mem_iff_getElem?] at hst
    obtain ⟨p, hp⟩ := hst
    obtain ⟨h1, h2⟩ := List.getElem?_zip_eq_some.1 hp
    exact sparseAt_getElem (columnRows_nodup hr hj) h2 h1
  · intro i j hn
    apply sparseAt_eq_zero
    intro hmem
    rcases Nat.lt_or_ge j r.ncols with hj | hj
    · exact hn ((hr.mem_columnRows hj).1 hmem)
    · rw [columnRows_out hr hj] at hmem
      simp at hmem

/-! ## Row permutations and sums -/

section
variable {m : Nat} {rp : List (Option Nat)} (inj : ∀ i i' p : Nat, rp[i]? = some (some p) → rp[i']? = some (some p) → i = i')
  (real : ∀ i, i < m → ∃ p : Nat, rp[i]? = some (some p) ∧ p < m) (onto : ∀ p : Nat, p < m → ∃ i, i < m ∧ rp[i]? = some (some p))
include inj real onto

theorem sum_permuted (f g : Nat → ℝ) (h : ∀ i t : Nat, i < m → rp[i]? = some (some t) → g t = f i) :
    ∑ t ∈ Finset.range m, g t = ∑ i ∈ Finset.range m, f i := by
  refine Finset.sum_nbij' (fun t => rp.idxOf (some t)) (fun i => (rp[i]?.getD none).getD 0) ?_ ?_ ?_ ?_ ?_
  · intro t ht
    obtain ⟨i, hi, hit⟩ := onto t (Finset.mem_range.1 ht)
    rw [idxOf_target inj hit]
    exact Finset.mem_range.2 hi
  · intro i hi
    obtain ⟨p, hp, hpm⟩ := real i (Finset.mem_range.1 hi)
    rw [hp]
    exact Finset.mem_range.2 hpm
  · intro t ht
    obtain ⟨i, hi, hit⟩ := onto t (Finset.mem_range.1 ht)
    rw [idxOf_target inj hit, hit]
    rfl
  · intro i hi
    obtain ⟨p, hp, hpm⟩ := real i (Finset.mem_range.1 hi)
    rw [hp]
    exact idxOf_target inj hp
  · intro t ht
    obtain ⟨i, hi, hit⟩ := onto t (Finset.mem_range.1 ht)
    rw [idxOf_target inj hit]
    exact h i t hi hit

/-- The right-hand side is permuted. -/
theorem scatterRhs_spec {T : Type} [Zero T] {b : List T} (hb : b.length = m) :
    ∃ y, (List.range m).foldlM (scatterRhs rp b) (List.replicate b.length 0) = .ok y ∧ y.length = m ∧
      ∀ i t : Nat, i < m → rp[i]? = some (some t) → y.getD t 0 = b.getD i 0 := by
  obtain ⟨y, h1, h2, h3⟩ := foldlM_range (fun k (y : List T) => y.length = m ∧ ∀ i t : Nat, i < k → rp[i]? = some (some t) → y.getD t 0 = b.getD i 0)
    (scatterRhs rp b) m (List.replicate b.length 0) ⟨by simpa using hb, fun i _ hi => by omega⟩ (by
    rintro k hk y ⟨e1, e2⟩
    obtain ⟨p, hp, hpm⟩ := real k hk
    have htarget : rowTarget rp k = .ok p := by
      rw [rowTarget, idx_of hp]
      rfl
    rw [scatterRhs, idx_of (getElem?_of_getD (by omega)), ok_bind, htarget, ok_bind, setIdx_of _ (by omega)]
    refine ⟨_, rfl, by simpa using e1, ?_⟩
    intro i t hi hit
    rw [getD_set _ _ (by omega)]
    by_cases hik : i = k
    · subst hik
      rw [hp] at hit
      simp only [Option.some.injEq] at hit
      rw [if_pos hit.symm]
    · rw [if_neg, e2 i t (by omega) hit]
      rintro rfl
      exact hik (inj _ _ _ hit hp))
  exact ⟨y, h1, h2, h3⟩

end

section
variable {pa : SparseStructure} {s : SymbolicQr} {S : Nat → Nat → Nat → Prop} (sh : QrShape pa s.rowPermutation s.rStructure s.hStructure S)
  {B : Nat → Nat → ℝ} {q : Qr ℝ} (inv : FactorizeInv pa s B pa.ncols q)
include sh inv

/-- The product of the reflectors. -/
noncomputable def Qr.reflectors (q : Qr ℝ) (m n : Nat) : (Nat → ℝ) → Nat → ℝ := reflectAll m (hBeta q.hBetas) (hVec q.sym.hStructure q.hValues) n

theorem qTrMul_spec {b : List ℝ} (hb : b.length = pa.nrows) :
    ∃ (y : Nat → ℝ) (b' : List ℝ), q.qTrMul b = .ok b' ∧ b'.length = pa.nrows ∧
      (∀ i t : Nat, i < pa.nrows → s.rowPermutation[i]? = some (some t) → y t = b.getD i 0) ∧
      ∀ t, b'.getD t 0 = q.reflectors pa.nrows pa.ncols y t := by
  obtain ⟨y, h1, h2, h3⟩ := scatterRhs_spec sh.inj sh.real sh.onto hb
  obtain ⟨b', h4, h5, h6⟩ := foldlM_range (fun k (z : List ℝ) => z.length = pa.nrows ∧
      ∀ t, z.getD t 0 = reflectAll pa.nrows (hBeta q.hBetas) (hVec s.hStructure q.hValues) k (fun t => y.getD t 0) t)
    (applyReflector q) pa.ncols y ⟨h2, fun _ => rfl⟩ (by
    rintro k hk z ⟨e1, e2⟩
    have hkh : k < s.hStructure.ncols := by rw [sh.hCols]; exact hk
    obtain ⟨z', f1, f2, f3⟩ := applyHouseholder_spec (x := z) (β := hBeta q.hBetas k) (rows := columnRows s.hStructure k)
        (values := colVals s.hStructure q.hValues k) (colVals_length sh.hWf inv.hLen hkh) (fun r hr => by
          rw [e1, ← sh.hRows]; exact sh.hWf.columnRows_bound hr)
    have hbeta : idx q.hBetas k = .ok (hBeta q.hBetas k) := idx_of (getElem?_of_getD (by rw [inv.bLen]; exact hk))
    refine ⟨z', ?_, by rw [f2, e1], ?_⟩
    · rw [applyReflector, inv.sym, sh.hWf.indexColumnRange hkh, ok_bind, sh.hWf.indexColumn hkh, ok_bind, hbeta, ok_bind,
        sliceIdx_of (sh.hWf.pointer_mono (by omega) hkh) (by rw [inv.hLen]; exact sh.hWf.pointer_le hkh), ok_bind]
      exact f1
    · intro t
      have hz : (fun t => z.getD t 0) = reflectAll pa.nrows (hBeta q.hBetas) (hVec s.hStructure q.hValues) k (fun t => y.getD t 0) := funext e2
      rw [f3, hz, e1, reflectAll]
      rfl)
  refine ⟨fun t => y.getD t 0, b', ?_, h5, h3, ?_⟩
  · rw [Qr.qTrMul, inv.sym, if_neg (by rw [sh.hRows]; omega), sh.hRows, sh.hCols, h1, ok_bind]
    exact h4
  · intro t
    rw [h6, Qr.reflectors, inv.sym]

theorem reflectors_column {j : Nat} (hj : j < pa.ncols) :
    q.reflectors pa.nrows pa.ncols (B j) = fun t => rEntry s.rStructure q.r.values t j := by
  have h := inv.col j hj
  have key : ∀ k, j + 1 ≤ k → k ≤ pa.ncols → reflectAll pa.nrows (hBeta q.hBetas) (hVec s.hStructure q.hValues) k (B j) =
      sparseAt (columnRows s.rStructure j) (colVals s.rStructure q.r.values j) := by
    intro k h1 h2
    induction k with
    | zero => omega
    | succ k ih =>
      rcases Nat.eq_or_lt_of_le h1 with h3 | h3
      · rw [← h3]
        exact h
      · rw [reflectAll, ih (by omega) (by omega)]
        apply reflect_disjoint
        intro t _
        by_cases ht : t ∈ columnRows s.rStructure j
        · left
          apply hVec_zero
          intro hmem
          have h4 := sh.rLe j hj t ht
          have h5 := sh.hGe k (by omega) t hmem
          omega
        · exact Or.inr (sparseAt_eq_zero ht)
  rw [Qr.reflectors, inv.sym, key pa.ncols (by omega) le_rfl]
  rfl

theorem rEntry_zero {t j : Nat} (hj : j < pa.ncols) (h : j < t) : rEntry s.rStructure q.r.values t j = 0 := by
  apply sparseAt_eq_zero
  intro hmem
  have := sh.rLe j hj t hmem
  omega

theorem reflectors_inner (x y : Nat → ℝ) :
    ∑ t ∈ Finset.range pa.nrows, q.reflectors pa.nrows pa.ncols x t * q.reflectors pa.nrows pa.ncols y t =
      ∑ t ∈ Finset.range pa.nrows, x t * y t := by
  rw [Qr.reflectors]
  apply reflectAll_inner
  rw [inv.sym]
  exact inv.orth

theorem reflectors_combination (z : Nat → ℝ) (t : Nat) : q.reflectors pa.nrows pa.ncols (fun t => ∑ j ∈ Finset.range pa.ncols, z j * B j t) t =
    ∑ j ∈ Finset.range pa.ncols, z j * rEntry s.rStructure q.r.values t j := by
  have h : q.reflectors pa.nrows pa.ncols (fun t => ∑ j ∈ Finset.range pa.ncols, z j * B j t) =
      fun t => ∑ j ∈ Finset.range pa.ncols, z j * q.reflectors pa.nrows pa.ncols (B j) t := by
    rw [Qr.reflectors, reflectAll_sum]
  rw [h]
  refine Finset.sum_congr rfl (fun j hj => ?_)
  rw [reflectors_column sh inv (Finset.mem_range.1 hj)]

/-- `R z = 0` exactly if `B z = 0`. -/
theorem kernel_iff (z : Nat → ℝ) : (∀ t, t < pa.nrows → ∑ j ∈ Finset.range pa.ncols, z j * B j t = 0) ↔
    ∀ t, t < pa.nrows → ∑ j ∈ Finset.range pa.ncols, z j * rEntry s.rStructure q.r.values t j = 0 := by
  have h := reflectors_inner sh inv (fun t => ∑ j ∈ Finset.range pa.ncols, z j * B j t) (fun t => ∑ j ∈ Finset.range pa.ncols, z j * B j t)
  simp only [reflectors_combination sh inv] at h
  constructor
  · intro h0 t ht
    rw [Finset.sum_eq_zero (s := Finset.range pa.nrows) (f := fun t => (∑ j ∈ Finset.range pa.ncols, z j * B j t) * _) (fun t ht => by
      rw [h0 t (Finset.mem_range.1 ht), zero_mul])] at h
    have := (Finset.sum_eq_zero_iff_of_nonneg (fun t _ => mul_self_nonneg _)).1 h t (Finset.mem_range.2 ht)
    exact mul_self_eq_zero.1 this
  · intro h0 t ht
    rw [Finset.sum_eq_zero (s := Finset.range pa.nrows) (f := fun t => (∑ j ∈ Finset.range pa.ncols, z j * rEntry s.rStructure q.r.values t j) * _)
      (fun t ht => by rw [h0 t (Finset.mem_range.1 ht), zero_mul])] at h
    have := (Finset.sum_eq_zero_iff_of_nonneg (fun t _ => mul_self_nonneg _)).1 h.symm t (Finset.mem_range.2 ht)
    exact mul_self_eq_zero.1 this

/-- The columns are linearly independent exactly if the diagonal of `R` has no zero. -/
theorem independent_iff : (∀ i, i < pa.ncols → rEntry s.rStructure q.r.values i i ≠ 0) ↔
    ∀ z : Nat → ℝ, (∀ t, t < pa.nrows → ∑ j ∈ Finset.range pa.ncols, z j * B j t = 0) → ∀ j, j < pa.ncols → z j = 0 := by
  have hle := sh.le
  constructor
  · intro hd z hz
    rw [kernel_iff sh inv] at hz
    have key : ∀ k j, j < pa.ncols → pa.ncols ≤ j + k → z j = 0 := by
      intro k
      induction k with
      | zero => intro j h1 h2; omega
      | succ k ih =>
        intro j h1 h2
        have h3 := hz j (by omega)
        rw [Finset.sum_eq_single j] at h3
        · exact (mul_eq_zero.1 h3).resolve_right (hd j h1)
        · intro j' hj' hne
          rw [Finset.mem_range] at hj'
          rcases Nat.lt_or_gt_of_ne hne with hlt | hgt
          · rw [rEntry_zero sh inv hj' hlt, mul_zero]
          · rw [ih j' hj' (by omega), zero_mul]
        · intro hn
          exact absurd (Finset.mem_range.2 h1) hn
    exact fun j hj => key pa.ncols j hj (by omega)
  · intro h i hi hzero
    let M : Matrix (Fin pa.ncols) (Fin pa.ncols) ℝ := fun t j => rEntry s.rStructure q.r.values t j
    have hM : M.det = 0 := by
      have hup : M.BlockTriangular id := fun (t j : Fin pa.ncols) (htj : j < t) => rEntry_zero sh inv j.2 htj
      rw [Matrix.det_of_upperTriangular hup]
      exact Finset.prod_eq_zero (Finset.mem_univ (⟨i, hi⟩ : Fin pa.ncols)) hzero
    obtain ⟨w, hw, hMw⟩ := Matrix.exists_mulVec_eq_zero_iff.2 hM
    apply hw
    funext j
    have := h (fun j => if hj : j < pa.ncols then w ⟨j, hj⟩ else 0) (by
      rw [kernel_iff sh inv]
      intro t ht
      rcases Nat.lt_or_ge t pa.ncols with htn | htn
      · have h1 := congrFun hMw ⟨t, htn⟩
        simp only [Matrix.mulVec, dotProduct, Pi.zero_apply] at h1
        refine Eq.trans ?_ h1
        rw [← Fin.sum_univ_eq_sum_range (fun j => (if hj : j < pa.ncols then w ⟨j, hj⟩ else 0) * rEntry s.rStructure q.r.values t j)]
        refine Finset.sum_congr rfl (fun j _ => ?_)
        rw [dif_pos j.2, mul_comm]
      · apply Finset.sum_eq_zero
        intro j hj
        rw [rEntry_zero sh inv (Finset.mem_range.1 hj) (by have := Finset.mem_range.1 hj; omega), mul_zero]) j.1 j.2
    rw [dif_pos j.2] at this
    exact this

/-- Back substitution with `R`, on a right-hand side multiplied by the reflectors. -/
theorem solveTop_spec {b : List ℝ} (hb : b.length = pa.nrows) :
    ∃ (y : Nat → ℝ) (flag : Bool) (z rest : List ℝ), (do
        let b ← q.qTrMul b
        let top ← sliceIdx b 0 q.r.nrows
        let (solved, top) ← q.r.solveUpperTriangular top
        pure (solved, top, b.drop q.r.nrows)) = (.ok (flag, z, rest) : R (Bool × List ℝ × List ℝ)) ∧
      z.length = pa.ncols ∧ z.length + rest.length = pa.nrows ∧
      (∀ i t : Nat, i < pa.nrows → s.rowPermutation[i]? = some (some t) → y t = b.getD i 0) ∧
      (flag = true ↔ ∀ i, i < pa.ncols → rEntry s.rStructure q.r.values i i ≠ 0) ∧
      (flag = true → ∀ j, j < pa.ncols → ∑ t ∈ Finset.range pa.nrows, B j t * ((∑ j' ∈ Finset.range pa.ncols, z.getD j' 0 * B j' t) - y t) = 0) := by
  have hle := sh.le
  obtain ⟨y, b', h1, h2, h3, h4⟩ := qTrMul_spec sh inv hb
  have hreq : q.r = ⟨s.rStructure, q.r.values⟩ := by
    rw [← inv.rStruct]
  obtain ⟨hm, hrep⟩ := rEntry_represents sh.rWf inv.rLen
  have hnr : q.r.nrows = pa.ncols := by rw [SparseColMat.nrows, inv.rStruct, sh.rRows]
  have htop : (b'.take pa.ncols).length = pa.ncols := by rw [List.length_take]; omega
  have hRR : (⟨s.rStructure, q.r.values⟩ : SparseColMat ℝ).structure'.nrows = pa.ncols := sh.rRows
  have hRC : (⟨s.rStructure, q.r.values⟩ : SparseColMat ℝ).structure'.ncols = pa.ncols := sh.rCols
  obtain ⟨flag, z, k1, k2, k3⟩ := C36_solution hm hrep (by rw [hRR, hRC]) (b'.take pa.ncols) (by rw [htop, hRR])
  obtain ⟨flag', z', k1', k3'⟩ := C36_false_iff_partial hm hrep (by rw [hRR, hRC]) (by
    intro i j hj hh
    rw [hRR] at hj
    have hj' : j < s.rStructure.ncols := by rw [sh.rCols]; exact hj
    exact sh.rLe j hj i ((sh.rWf.mem_columnRows hj').2 hh)) (b'.take pa.ncols) (by rw [htop, hRR])
  rw [k1] at k1'
  simp only [Except.ok.injEq, Prod.mk.injEq] at k1'
  obtain ⟨rfl, rfl⟩ := k1'
  rw [hRR] at k3 k3'
  refine ⟨y, flag, z, b'.drop pa.ncols, ?_, by rw [k2, htop], by rw [k2, htop, List.length_drop]; omega, h3, ?_, ?_⟩
  · rw [h1, ok_bind, hnr, sliceIdx_of (Nat.zero_le _) (by omega), ok_bind]
    simp only [List.drop_zero, Nat.sub_zero]
    rw [hreq, k1, ok_bind]
    rfl
  · cases hf : flag with
    | true =>
      simp only [true_iff]
      exact (k3 hf).1
    | false =>
      simp only [Bool.false_eq_true, false_iff, not_forall]
      obtain ⟨i, hi, h0⟩ := k3'.1 hf
      exact ⟨i, hi, fun hne => hne h0⟩
  · intro hf j hj
    have hsol := (k3 hf).2.2
    rw [← reflectors_inner sh inv, reflectors_column sh inv hj]
    apply Finset.sum_eq_zero
    intro t ht
    rcases Nat.lt_or_ge t pa.ncols with htn | htn
    · have hlin : q.reflectors pa.nrows pa.ncols (fun t => (∑ j' ∈ Finset.range pa.ncols, z.getD j' 0 * B j' t) - y t) t =
          (∑ j' ∈ Finset.range pa.ncols, z.getD j' 0 * rEntry s.rStructure q.r.values t j') - q.reflectors pa.nrows pa.ncols y t := by
        rw [← reflectors_combination sh inv]
        have e1 : (fun t => (∑ j' ∈ Finset.range pa.ncols, z.getD j' 0 * B j' t) - y t) =
            fun t => (∑ j' ∈ Finset.range pa.ncols, z.getD j' 0 * B j' t) + (-1) * y t := by funext t; ring
        rw [e1, Qr.reflectors, reflectAll_add, reflectAll_smul]
        ring
      have h5 : (∑ j' ∈ Finset.range pa.ncols, z.getD j' 0 * rEntry s.rStructure q.r.values t j') = q.reflectors pa.nrows pa.ncols y t := by
        rw [← h4]
        have h6 := hsol t htn
        rw [show (b'.take pa.ncols).getD t 0 = b'.getD t 0 by
          rw [List.getD_eq_getElem?_getD, List.getElem?_take, if_pos htn, List.getD_eq_getElem?_getD]] at h6
        rw [← h6, Finset.range_eq_Ico, ← Finset.sum_Ico_consecutive _ (Nat.zero_le t) (by omega : t ≤ pa.ncols)]
        rw [Finset.sum_eq_zero (s := Finset.Ico 0 t) (fun j' hj' => by
          rw [Finset.mem_Ico] at hj'
          rw [rEntry_zero sh inv (by omega) hj'.2, mul_zero]), zero_add]
        exact Finset.sum_congr rfl (fun j' _ => mul_comm _ _)
      rw [hlin, h5]
      ring
    · show rEntry s.rStructure q.r.values t j * _ = 0
      rw [rEntry_zero sh inv hj (by omega), zero_mul]

end

end Fiksi
