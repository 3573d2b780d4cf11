import Verif.Proofs.RoundedQr
/-!
# Least squares in rounded arithmetic
-/
namespace Fiksi

open Spec

theorem nrm_eq_zero {m : Nat} {x : Nat → ℝ} : nrm m x = 0 ↔ ∀ t, t < m → x t = 0 := by
  rw [nrm, Real.sqrt_eq_zero (sum_self_nonneg x), Finset.sum_eq_zero_iff_of_nonneg (fun _ _ => mul_self_nonneg _)]
  constructor
  · exact fun h t ht => mul_self_eq_zero.1 (h t (Finset.mem_range.2 ht))
  · intro h t ht
    rw [h t (Finset.mem_range.1 ht), mul_zero]

/-- Reflectors do not change the kernel. -/
theorem reflectAll_kernel {m n k : Nat} {b : Nat → ℝ} {v : Nat → Nat → ℝ} (h : ∀ i, i < k → Orthogonal m (b i) (v i)) {B R : Nat → Nat → ℝ}
    (hR : ∀ j, j < n → reflectAll m b v k (B j) = R j) (z : Nat → ℝ) :
    (∀ t, t < m → ∑ j ∈ Finset.range n, z j * B j t = 0) ↔ ∀ t, t < m → ∑ j ∈ Finset.range n, z j * R j t = 0 := by
  have h1 : reflectAll m b v k (fun t => ∑ j ∈ Finset.range n, z j * B j t) = fun t => ∑ j ∈ Finset.range n, z j * R j t := by
    rw [reflectAll_sum]
    funext t
    exact Finset.sum_congr rfl (fun j hj => by rw [hR j (Finset.mem_range.1 hj)])
  rw [← nrm_eq_zero (x := fun t => ∑ j ∈ Finset.range n, z j * B j t), ← nrm_eq_zero (x := fun t => ∑ j ∈ Finset.range n, z j * R j t), ← h1,
    reflectAll_nrm h]

/-- The columns of a triangular matrix without zero on the diagonal are independent. -/
theorem triangular_independent {m n : Nat} (hle : n ≤ m) {R : Nat → Nat → ℝ} (hR : ∀ j t, j < n → j < t → R j t = 0) (hd : ∀ i, i < n → R i i ≠ 0)
    (z : Nat → ℝ) (hz : ∀ t, t < m → ∑ j ∈ Finset.range n, z j * R j t = 0) : ∀ j, j < n → z j = 0 := by
  have key : ∀ k j, j < n → n ≤ j + k → z j = 0 := by
    intro k
    induction k with
    | zero => intro j h1 h2; omega
    | succ k ih =>
      intro j h1 h2
      have h3 := hz j (by omega)
      rw [Finset.sum_eq_single j] at h3
      · exact (mul_eq_zero.1 h3).resolve_right (hd j h1)
      · intro j' hj' hne
        rw [Finset.mem_range] at hj'
        rcases Nat.lt_or_gt_of_ne hne with hlt | hgt
        · rw [hR j' j hj' hlt, mul_zero]
        · rw [ih j' hj' (by omega), zero_mul]
      · intro hn
        exact absurd (Finset.mem_range.2 h1) hn
  exact fun j hj => key n j hj (by omega)

/-- Those of one with a zero on the diagonal are not. -/
theorem triangular_dependent {m n : Nat} {R : Nat → Nat → ℝ} (hR : ∀ j t, j < n → j < t → R j t = 0) {i : Nat} (hi : i < n) (hd : R i i = 0) :
    ∃ z : Nat → ℝ, (∃ j < n, z j ≠ 0) ∧ ∀ t, t < m → ∑ j ∈ Finset.range n, z j * R j t = 0 := by
  let M : Matrix (Fin n) (Fin n) ℝ := fun t j => R j t
  have hM : M.det = 0 := by
    have hup : M.BlockTriangular id := fun (t j : Fin n) (htj : j < t) => hR j t j.2 htj
    rw [Matrix.det_of_upperTriangular hup]
    exact Finset.prod_eq_zero (Finset.mem_univ (⟨i, hi⟩ : Fin n)) hd
  obtain ⟨w, hw, hMw⟩ := Matrix.exists_mulVec_eq_zero_iff.2 hM
  refine ⟨fun j => if hj : j < n then w ⟨j, hj⟩ else 0, ?_, ?_⟩
  · by_contra hn
    apply hw
    funext j
    by_contra hne
    refine hn ⟨j, j.2, ?_⟩
    beta_reduce
    rw [dif_pos j.2]
    exact hne
  · intro t ht
    rcases Nat.lt_or_ge t n with htn | htn
    · have h1 := congrFun hMw ⟨t, htn⟩
      simp only [Matrix.mulVec, dotProduct, Pi.zero_apply] at h1
      refine Eq.trans ?_ h1
      rw [← Fin.sum_univ_eq_sum_range (fun j => (if hj : j < n then w ⟨j, hj⟩ else 0) * R j t)]
      refine Finset.sum_congr rfl (fun j _ => ?_)
      rw [dif_pos j.2, mul_comm]
    · apply Finset.sum_eq_zero
      intro j hj
      rw [hR j t (Finset.mem_range.1 hj) (by have := Finset.mem_range.1 hj; omega), mul_zero]

/-- How many roundings the error of solving is worth. -/
def solveRoundings (m n : Nat) : Nat := 24 * m * n + 61 * n

section
variable {A : Arith} {u : ℝ} (hA : A.Accurate u)
include hA

theorem stepError_pow (m n : Nat) : (1 + stepError u m) ^ n * (1 + gap u n) ≤ 1 + gap u (solveRoundings m n) := by
  have h0 := hA.pos
  have h1 := hA.lt_one
  have hg := gap_nonneg h0 h1 (8 * m + 20)
  have h2 : 1 + stepError u m ≤ 1 + gap u ((8 * m + 20) * 3) := by
    rw [← one_add_gap_pow h0 h1, stepError]
    nlinarith [mul_nonneg hg hg, mul_nonneg (mul_nonneg hg hg) hg]
  have h3 : (1 + stepError u m) ^ n ≤ 1 + gap u ((8 * m + 20) * 3 * n) := by
    rw [← one_add_gap_pow h0 h1]
    exact pow_le_pow_left₀ (by have := stepError_nonneg hA m; linarith) h2 n
  have h4 := gap_nonneg h0 h1 n
  refine (mul_le_mul_of_nonneg_right h3 (by linarith)).trans ?_
  rw [one_add_gap_mul h0 h1, show (8 * m + 20) * 3 * n + n = solveRoundings m n by unfold solveRoundings; ring]

variable {pa : SparseStructure} {s : SymbolicQr} {S : Nat → Nat → Nat → Prop} (sh : QrShape pa s.rowPermutation s.rStructure s.hStructure S)
  {B : Nat → Nat → Fl A} {q : Qr (Fl A)} {b : Nat → ℝ} {v : Nat → Nat → ℝ} (inv : RoundedInv u pa s B pa.ncols q b v)
include sh inv

omit hA in
theorem entryAt_zero {t j : Nat} (hj : j < pa.ncols) (h : j < t) : entryAt s.rStructure q.r.values t j = 0 := by
  rw [entryAt, if_neg]
  intro hmem
  have := sh.rLe j hj t hmem
  omega

/-- A column of `R`, after all reflectors. -/
theorem column_rounded {j : Nat} (hj : j < pa.ncols) :
    ∃ Δ, nrm pa.nrows Δ ≤ ((1 + stepError u pa.nrows) ^ pa.ncols - 1) * nrm pa.nrows (fun t => (B j t).val) ∧
      reflectAll pa.nrows b v pa.ncols (fun t => (B j t).val + Δ t) = fun t => (entryAt s.rStructure q.r.values t j).val := by
  obtain ⟨Δ, h1, h2⟩ := inv.col j hj
  have hε := stepError_nonneg hA pa.nrows
  refine ⟨Δ, h1.trans ?_, ?_⟩
  · apply mul_le_mul_of_nonneg_right _ (nrm_nonneg _)
    have := pow_le_pow_right₀ (by linarith : 1 ≤ 1 + stepError u pa.nrows) (show j + 1 ≤ pa.ncols from hj)
    linarith
  · have key : ∀ k, j + 1 ≤ k → k ≤ pa.ncols → reflectAll pa.nrows b v k (fun t => (B j t).val + Δ t) =
        fun t => (entryAt s.rStructure q.r.values t j).val := by
      intro k h3 h4
      induction k with
      | zero => omega
      | succ k ih =>
        rcases Nat.eq_or_lt_of_le h3 with h5 | h5
        · rw [← h5]
          exact h2
        · rw [reflectAll, ih (by omega) (by omega)]
          apply reflect_disjoint
          intro t _
          by_cases ht : j < t
          · right
            rw [entryAt_zero sh inv hj ht, fl_zero]
          · left
            apply inv.near.supp
            intro hmem
            have := sh.hGe k (by omega) t hmem
            omega
    exact key pa.ncols hj le_rfl

/-- Back substitution with `R`, on a right-hand side multiplied by the reflectors. -/
theorem solveTop_rounded {c : List (Fl A)} (hc : c.length = pa.nrows) :
    ∃ (y : Nat → ℝ) (flag : Bool) (z rest : List (Fl A)), (do
        let b ← q.qTrMul c
        let top ← sliceIdx b 0 q.r.nrows
        let (solved, top) ← q.r.solveUpperTriangular top
        pure (solved, top, b.drop q.r.nrows)) = (.ok (flag, z, rest) : R (Bool × List (Fl A) × List (Fl A))) ∧
      z.length = pa.ncols ∧ z.length + rest.length = pa.nrows ∧
      (∀ i t : Nat, i < pa.nrows → s.rowPermutation[i]? = some (some t) → y t = (c.getD i 0).val) ∧
      (flag = true → ∃ (B' : Nat → Nat → ℝ) (y' : Nat → ℝ),
        (∀ j, j < pa.ncols → nrm pa.nrows (fun t => B' j t - (B j t).val) ≤ gap u (solveRoundings pa.nrows pa.ncols) * nrm pa.nrows (fun t => (B j t).val)) ∧
        nrm pa.nrows (fun t => y' t - y t) ≤ gap u (solveRoundings pa.nrows pa.ncols) * nrm pa.nrows y ∧
        (∀ w : Nat → ℝ, (∀ t, t < pa.nrows → ∑ j ∈ Finset.range pa.ncols, w j * B' j t = 0) → ∀ j, j < pa.ncols → w j = 0) ∧
        ∀ j, j < pa.ncols → ∑ t ∈ Finset.range pa.nrows, B' j t * ((∑ j' ∈ Finset.range pa.ncols, (z.getD j' 0).val * B' j' t) - y' t) = 0) ∧
      (flag = false → ∃ B' : Nat → Nat → ℝ,
        (∀ j, j < pa.ncols → nrm pa.nrows (fun t => B' j t - (B j t).val) ≤ gap u (solveRoundings pa.nrows pa.ncols) * nrm pa.nrows (fun t => (B j t).val)) ∧
        ∃ w : Nat → ℝ, (∃ j < pa.ncols, w j ≠ 0) ∧ ∀ t, t < pa.nrows → ∑ j ∈ Finset.range pa.ncols, w j * B' j t = 0) := by
  have h0 := hA.pos
  have h1 := hA.lt_one
  have hle := sh.le
  have hε := stepError_nonneg hA pa.nrows
  set δ := gap u (solveRoundings pa.nrows pa.ncols) with hδ
  set E := (1 + stepError u pa.nrows) ^ pa.ncols with hE
  have hE1 : 1 ≤ E := one_le_pow₀ (by linarith)
  have hEg := stepError_pow hA pa.nrows pa.ncols
  rw [← hE, ← hδ] at hEg
  have hgn := gap_nonneg h0 h1 pa.ncols
  have hEδ : E - 1 ≤ δ := by nlinarith
  obtain ⟨y, Δy, c', k1, k2, k3, k4, k5⟩ := qTrMul_rounded hA sh inv hc
  have hreq : q.r = ⟨s.rStructure, q.r.values⟩ := by rw [← inv.fits.rStruct]
  obtain ⟨hm, hrep⟩ := entryAt_represents sh.rWf inv.fits.rLen
  have hnr : q.r.nrows = pa.ncols := by rw [SparseColMat.nrows, inv.fits.rStruct, sh.rRows]
  have htop : (c'.take pa.ncols).length = pa.ncols := by rw [List.length_take]; omega
  obtain ⟨flag, z, g1, g2, g3, g4⟩ := solveUpper_rounded hA hm hrep (n := pa.ncols) sh.rRows (by rw [← sh.rCols]) (c'.take pa.ncols) htop
  have hcol := fun j (hj : j < pa.ncols) => column_rounded hA sh inv hj
  choose! Δ hΔ1 hΔ2 using hcol
  refine ⟨y, flag, z, c'.drop pa.ncols, ?_, g2, by rw [g2, List.length_drop]; omega, k3, ?_, ?_⟩
  · rw [k1, ok_bind, hnr, sliceIdx_of (Nat.zero_le _) (by omega), ok_bind]
    simp only [List.drop_zero, Nat.sub_zero]
    rw [hreq, g1, ok_bind]
    rfl
  · intro hf
    obtain ⟨hd, hsol⟩ := g3 hf
    choose! γ hγ1 hγ2 using hsol
    -- the triangular matrix that is solved exactly
    set R' : Nat → Nat → ℝ := fun j t => if t < pa.ncols then γ t j * (entryAt s.rStructure q.r.values t j).val else 0 with hR'
    have hRR : ∀ j, j < pa.ncols → ∃ D, nrm pa.nrows D ≤ δ * nrm pa.nrows (fun t => (B j t).val) ∧
        reflectAll pa.nrows b v pa.ncols (fun t => (B j t).val + D t) = R' j := by
      intro j hj
      obtain ⟨D, e1, e2⟩ := reflectAll_perturb (fun i hi => inv.near.orth i hi) (hΔ2 j hj) (Y := R' j) (hΔ1 j hj) hgn (by
        have : ∀ t, t < pa.nrows → |R' j t - (entryAt s.rStructure q.r.values t j).val| ≤
            |gap u pa.ncols * (entryAt s.rStructure q.r.values t j).val| := by
          intro t _
          rw [hR']
          dsimp only
          by_cases htn : t < pa.ncols
          · rw [if_pos htn, show γ t j * (entryAt s.rStructure q.r.values t j).val - (entryAt s.rStructure q.r.values t j).val =
              (γ t j - 1) * (entryAt s.rStructure q.r.values t j).val by ring, abs_mul, abs_mul, abs_of_nonneg hgn]
            exact mul_le_mul_of_nonneg_right ((hγ1 t htn j).abs h0 h1) (abs_nonneg _)
          · rw [if_neg htn, entryAt_zero sh inv hj (by omega), fl_zero]
            simp
        refine (nrm_mono this).trans ?_
        rw [nrm_smul, abs_of_nonneg hgn])
      refine ⟨D, e1.trans (mul_le_mul_of_nonneg_right ?_ (nrm_nonneg _)), e2⟩
      linarith
    choose! D hD1 hD2 using hRR
    have hzero : ∀ j t, j < pa.ncols → j < t → R' j t = 0 := by
      intro j t hj hjt
      rw [hR']
      dsimp only
      rw [entryAt_zero sh inv hj hjt, fl_zero, mul_zero, ite_self]
    refine ⟨fun j t => (B j t).val + D j t, fun t => y t + Δy t, ?_, ?_, ?_, ?_⟩
    · intro j hj
      have : (fun t => (B j t).val + D j t - (B j t).val) = D j := by funext t; ring
      rw [this]
      exact hD1 j hj
    · have : (fun t => y t + Δy t - y t) = Δy := by funext t; ring
      rw [this]
      exact k4.trans (mul_le_mul_of_nonneg_right hEδ (nrm_nonneg _))
    · intro w hw
      rw [reflectAll_kernel inv.near.orth (R := R') hD2] at hw
      apply triangular_independent hle hzero _ w hw
      intro i hi
      rw [hR']
      dsimp only
      rw [if_pos hi]
      exact mul_ne_zero ((hγ1 i hi i).pos h0 h1).ne' (hd i hi)
    · intro j hj
      rw [← reflectAll_inner inv.near.orth, hD2 j hj]
      apply Finset.sum_eq_zero
      intro t ht
      have ht' := Finset.mem_range.1 ht
      rcases Nat.lt_or_ge t pa.ncols with htn | htn
      · have hlin : reflectAll pa.nrows b v pa.ncols (fun t => (∑ j' ∈ Finset.range pa.ncols, (z.getD j' 0).val * ((B j' t).val + D j' t)) - (y t + Δy t)) t =
            (∑ j' ∈ Finset.range pa.ncols, (z.getD j' 0).val * R' j' t) - (c'.getD t 0).val := by
          have e1 : (fun t => (∑ j' ∈ Finset.range pa.ncols, (z.getD j' 0).val * ((B j' t).val + D j' t)) - (y t + Δy t)) =
              fun t => (∑ j' ∈ Finset.range pa.ncols, (z.getD j' 0).val * (fun j t => (B j t).val + D j t) j' t) + (-1) * (fun t => y t + Δy t) t := by
            funext t; ring
          rw [e1, reflectAll_add, reflectAll_smul, reflectAll_sum, k5]
          have e2 : ∑ j' ∈ Finset.range pa.ncols, (z.getD j' 0).val * reflectAll pa.nrows b v pa.ncols ((fun j t => (B j t).val + D j t) j') t =
              ∑ j' ∈ Finset.range pa.ncols, (z.getD j' 0).val * R' j' t := by
            refine Finset.sum_congr rfl (fun j' hj' => ?_)
            have := hD2 j' (Finset.mem_range.1 hj')
            beta_reduce
            rw [this]
          beta_reduce
          rw [e2]
          ring
        have h5 : (∑ j' ∈ Finset.range pa.ncols, (z.getD j' 0).val * R' j' t) = (c'.getD t 0).val := by
          have h6 := hγ2 t htn
          rw [show (c'.take pa.ncols).getD t 0 = c'.getD t 0 by
            rw [List.getD_eq_getElem?_getD, List.getElem?_take, if_pos htn, List.getD_eq_getElem?_getD]] at h6
          rw [← h6, Finset.range_eq_Ico, ← Finset.sum_Ico_consecutive _ (Nat.zero_le t) (by omega : t ≤ pa.ncols)]
          rw [Finset.sum_eq_zero (s := Finset.Ico 0 t) (fun j' hj' => by
            rw [Finset.mem_Ico] at hj'
            rw [hzero j' t (by omega) hj'.2, mul_zero]), zero_add]
          refine Finset.sum_congr rfl (fun j' _ => ?_)
          rw [hR']
          dsimp only
          rw [if_pos htn, mul_comm]
        rw [hlin, h5]
        ring
      · rw [hzero j t hj (by omega), zero_mul]
  · intro hf
    obtain ⟨i, hi, hzd⟩ := g4 (by
      intro i j hj hh
      have hj' : j < s.rStructure.ncols := by rw [sh.rCols]; exact hj
      exact sh.rLe j hj i ((sh.rWf.mem_columnRows hj').2 hh)) hf
    refine ⟨fun j t => (B j t).val + Δ j t, ?_, ?_⟩
    · intro j hj
      have : (fun t => (B j t).val + Δ j t - (B j t).val) = Δ j := by funext t; ring
      rw [this]
      exact (hΔ1 j hj).trans (mul_le_mul_of_nonneg_right hEδ (nrm_nonneg _))
    · obtain ⟨w, hw1, hw2⟩ := triangular_dependent (m := pa.nrows) (R := fun j t => (entryAt s.rStructure q.r.values t j).val)
        (fun j t hj hjt => by beta_reduce; rw [entryAt_zero sh inv hj hjt, fl_zero]) hi hzd
      exact ⟨w, hw1, (reflectAll_kernel inv.near.orth (R := fun j t => (entryAt s.rStructure q.r.values t j).val) hΔ2 w).2 hw2⟩

end

end Fiksi
