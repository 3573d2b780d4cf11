import Verif.Proofs.BackSubst
import Verif.Proofs.RelError
/-!
# Back substitution in rounded arithmetic
-/
namespace Fiksi

open Spec

theorem fl_zero {A : Arith} : (0 : Fl A).val = 0 := rfl

theorem fl_ext {A : Arith} {x y : Fl A} (h : x.val = y.val) : x = y := by
  cases x
  cases y
  congr

/-- The loop: what is left to do, and the equations with changed coefficients that have been solved. -/
theorem solveUpperLoop_rounded {A : Arith} {u : ℝ} (hA : A.Accurate u) {a : SparseColMat (Fl A)} (h : MatWellFormed a) {U : Nat → Nat → Fl A}
    (hU : Represents a U) (n : Nat) (k : Nat) (hk : k ≤ n) (hn : n ≤ a.structure'.ncols) (b₀ b : List (Fl A)) (hb : b.length = n)
    (hdone : ∀ i, k ≤ i → i < n → ∃ c : Nat → ℝ, (∀ j, Ratio u n (c j)) ∧
      ∑ j ∈ Finset.Ico i n, c j * (U i j).val * (b.getD j 0).val = (b₀.getD i 0).val)
    (hrest : ∀ i, i < k → ∃ (α : ℝ) (c : Nat → ℝ), Ratio u (n - k) α ∧ (∀ j, Ratio u (n - k) (c j)) ∧
      α * (b.getD i 0).val + ∑ j ∈ Finset.Ico k n, c j * (U i j).val * (b.getD j 0).val = (b₀.getD i 0).val)
    (hdiag : ∀ i, k ≤ i → i < n → (U i i).val ≠ 0) :
    ∃ flag b', solveUpperLoop a k b = .ok (flag, b') ∧ b'.length = n ∧
      (flag = true → (∀ i < n, (U i i).val ≠ 0) ∧ ∀ i < n, ∃ c : Nat → ℝ, (∀ j, Ratio u n (c j)) ∧
        ∑ j ∈ Finset.Ico i n, c j * (U i j).val * (b'.getD j 0).val = (b₀.getD i 0).val) ∧
      ((∀ i j, j < n → Has a.structure' i j → i ≤ j) → flag = false → ∃ i < n, (U i i).val = 0) := by
  have h0 := hA.pos
  have h1 := hA.lt_one
  induction k generalizing b with
  | zero => exact ⟨true, b, rfl, hb, fun _ => ⟨fun i hi => hdiag i (by omega) hi, fun i hi => hdone i (by omega) hi⟩, fun _ h => by simp at h⟩
  | succ k ih =>
    have hkc : k < a.structure'.ncols := by omega
    obtain ⟨d, hd1, hd2, hd3⟩ := lastDiagonal_cases h hU hkc
    rw [solveUpperLoop, h.indexColumn hkc, ok_bind]
    simp only
    rw [hd1, ok_bind]
    by_cases hd0 : d.val = 0
    · refine ⟨false, b, ?_, hb, by simp, ?_⟩
      · rw [if_pos (by simp [FloatOps.eqB, hd0, fl_zero])]
        rfl
      · intro hup _
        exact ⟨k, by omega, by rw [← hd3 (fun r hr => hup r k (by omega) hr), hd0]⟩
    · rw [if_neg (by simp [FloatOps.eqB, hd0, fl_zero])]
      obtain ⟨hdU, -⟩ := hd2 (fun hh => hd0 (by rw [hh]; rfl))
      have hbk : b[k]? = some (b.getD k 0) := by
        rw [List.getD_eq_getElem?_getD, List.getElem?_eq_getElem (by omega)]; rfl
      obtain ⟨b', e1, e2, e3, e4, e5⟩ := solveUpper_step_any h hU hkc (b := b) (by omega) (b.getD k 0 / d)
      rw [idx_of hbk, ok_bind, setIdx_of _ (by omega), ok_bind, e1, ok_bind]
      obtain ⟨ρ, hρ, hx⟩ := hA.near ((b.getD k 0).val / d.val)
      have hρp := hρ.pos h0 h1
      have hxk : (b'.getD k 0).val = ρ * ((b.getD k 0).val / d.val) := by
        rw [e4]
        exact hx
      have hkeep : ∀ (c : Nat → ℝ) (i l : Nat), k < l → ∑ j ∈ Finset.Ico l n, c j * (U i j).val * (b'.getD j 0).val =
          ∑ j ∈ Finset.Ico l n, c j * (U i j).val * (b.getD j 0).val := by
        intro c i l hl
        apply Finset.sum_congr rfl
        intro j hj
        rw [e5 j (by have := (Finset.mem_Ico.1 hj).1; omega)]
      have hupd : ∀ (c : Nat → ℝ) (γ : ℝ) (i : Nat), ∑ j ∈ Finset.Ico k n, (if j = k then γ else c j) * (U i j).val * (b'.getD j 0).val =
          γ * (U i k).val * (b'.getD k 0).val + ∑ j ∈ Finset.Ico (k + 1) n, c j * (U i j).val * (b.getD j 0).val := by
        intro c γ i
        rw [Finset.sum_eq_sum_Ico_succ_bot (by omega), if_pos rfl, ← hkeep c i (k + 1) (by omega)]
        congr 1
        apply Finset.sum_congr rfl
        intro j hj
        rw [if_neg (by have := (Finset.mem_Ico.1 hj).1; omega)]
      apply ih (by omega) b' (by rw [e2, hb])
      · intro i hi1 hi2
        rcases Nat.eq_or_lt_of_le hi1 with rfl | hlt
        · obtain ⟨α, c, f1, f2, f3⟩ := hrest k (by omega)
          refine ⟨fun j => if j = k then α / ρ else c j, fun j => ?_, ?_⟩
          · beta_reduce
            split
            · exact (f1.div h0 h1 hρ).mono h0 h1 (by omega)
            · exact (f2 j).mono h0 h1 (by omega)
          · rw [hupd, hxk, ← f3, ← hdU]
            congr 1
            field_simp
        · obtain ⟨c, f1, f2⟩ := hdone i (by omega) hi2
          exact ⟨c, f1, by rw [hkeep c i i hlt]; exact f2⟩
      · intro i hi
        obtain ⟨α, c, f1, f2, f3⟩ := hrest i (by omega)
        rcases e3 i hi with he | ⟨he, he'⟩
        · obtain ⟨σ, hσ, hy⟩ := hA.near ((b.getD k 0 / d).val * (U i k).val)
          obtain ⟨τ, hτ, hz⟩ := hA.near ((b.getD i 0).val - A.rnd ((b.getD k 0 / d).val * (U i k).val))
          have hτp := hτ.pos h0 h1
          refine ⟨α / τ, fun j => if j = k then α * σ else c j, (f1.div h0 h1 hτ).mono h0 h1 (by omega), fun j => ?_, ?_⟩
          · beta_reduce
            split
            · exact (f1.mul h0 h1 hσ).mono h0 h1 (by omega)
            · exact (f2 j).mono h0 h1 (by omega)
          · have hbi : (b'.getD i 0).val = τ * ((b.getD i 0).val - σ * ((b'.getD k 0).val * (U i k).val)) := by
              rw [he, e4, ← hy]
              exact hz
            rw [hupd, hbi, ← f3]
            field_simp
            ring
        · refine ⟨α, fun j => if j = k then 1 else c j, f1.mono h0 h1 (by omega), fun j => ?_, ?_⟩
          · beta_reduce
            split
            · exact Ratio.one h0 h1 _
            · exact (f2 j).mono h0 h1 (by omega)
          · rw [hupd, he', ← f3, he, fl_zero]
            ring
      · intro i hi1 hi2
        rcases Nat.eq_or_lt_of_le hi1 with rfl | hlt
        · rw [← hdU]; exact hd0
        · exact hdiag i hlt hi2

/-- Back substitution solves equations whose coefficients differ by as many roundings as there are unknowns. -/
theorem solveUpper_rounded {A : Arith} {u : ℝ} (hA : A.Accurate u) {a : SparseColMat (Fl A)} (h : MatWellFormed a) {U : Nat → Nat → Fl A}
    (hU : Represents a U) {n : Nat} (hr : a.structure'.nrows = n) (hn : n ≤ a.structure'.ncols) (b : List (Fl A)) (hb : b.length = n) :
    ∃ flag b', a.solveUpperTriangular b = .ok (flag, b') ∧ b'.length = n ∧
      (flag = true → (∀ i < n, (U i i).val ≠ 0) ∧ ∀ i < n, ∃ c : Nat → ℝ, (∀ j, Ratio u n (c j)) ∧
        ∑ j ∈ Finset.Ico i n, c j * (U i j).val * (b'.getD j 0).val = (b.getD i 0).val) ∧
      ((∀ i j, j < n → Has a.structure' i j → i ≤ j) → flag = false → ∃ i < n, (U i i).val = 0) := by
  rw [SparseColMat.solveUpperTriangular, if_neg (by simp [SparseColMat.nrows, hr, hb]), hr]
  refine solveUpperLoop_rounded hA h hU n n le_rfl hn b b hb (fun i h1 h2 => by omega) (fun i hi => ?_) (fun i h1 h2 => by omega)
  exact ⟨1, fun _ => 1, Ratio.one hA.pos hA.lt_one _, fun _ => Ratio.one hA.pos hA.lt_one _, by simp⟩

end Fiksi
