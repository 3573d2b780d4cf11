import Verif.Proofs.Householder
import Verif.Proofs.QrShape
/-!
# The numeric factorisation
-/
namespace Fiksi

open Spec

/-! ## Columns of values -/

/-- The part of `values` that belongs to column `j`. -/
def colVals {T : Type} (s : SparseStructure) (values : List T) (j : Nat) : List T :=
  (values.drop (s.columnPointers.getD j 0)).take (s.columnPointers.getD (j + 1) 0 - s.columnPointers.getD j 0)

section
variable {T : Type} {s : SparseStructure} (hs : WellFormed s) {values : List T} {j : Nat}
include hs

theorem colVals_getElem? {i : Nat} (hj : j < s.ncols) (hi : i < (columnRows s j).length) :
    (colVals s values j)[i]? = values[s.columnPointers.getD j 0 + i]? := by
  rw [hs.columnRows_length hj] at hi
  rw [colVals, List.getElem?_take, if_pos hi, List.getElem?_drop]

theorem colVals_length (hv : values.length = s.rowIndices.length) (hj : j < s.ncols) : (colVals s values j).length = (columnRows s j).length := by
  rw [hs.columnRows_length hj, colVals, List.length_take, List.length_drop, hv]
  have := hs.pointer_le (j := j + 1) hj
  omega

theorem householderColumn_eq (hv : values.length = s.rowIndices.length) (hj : j < s.ncols) :
    householderColumn s values j = .ok (colVals s values j) := by
  rw [householderColumn, idx_of (hs.pointer (by omega)), ok_bind, idx_of (hs.pointer (by omega)), ok_bind,
    sliceIdx_of (hs.pointer_mono (by omega) hj) (by rw [hv]; exact hs.pointer_le hj)]
  rfl

theorem columnRows_nodup (hj : j < s.ncols) : (columnRows s j).Nodup := by
  have := hs.columnRows_sorted hj
  exact this.imp (fun h => ne_of_lt h)

theorem columnRows_lt (hj : j < s.ncols) {i : Nat} (hi : i < (columnRows s j).length) :
    s.columnPointers.getD j 0 + i < s.columnPointers.getD (j + 1) 0 ∧ s.columnPointers.getD j 0 + i < s.rowIndices.length := by
  rw [hs.columnRows_length hj] at hi
  have := hs.pointer_le (j := j + 1) hj
  omega

end

theorem colVals_congr {T : Type} {s : SparseStructure} {values values' : List T} {j : Nat}
    (h : ∀ p, s.columnPointers.getD j 0 ≤ p → p < s.columnPointers.getD (j + 1) 0 → values[p]? = values'[p]?) :
    colVals s values j = colVals s values' j := by
  apply List.ext_getElem?
  intro i
  rw [colVals, colVals, List.getElem?_take, List.getElem?_take]
  split
  · rw [List.getElem?_drop, List.getElem?_drop]
    exact h _ (by omega) (by omega)
  · rfl

theorem sparseAt_ext {rows : List Nat} (hn : rows.Nodup) {values : List ℝ} {g : Nat → ℝ} (hlen : values.length = rows.length)
    (h : ∀ i r : Nat, rows[i]? = some r → values[i]? = some (g r)) (hz : ∀ t, t ∉ rows → g t = 0) : sparseAt rows values = g := by
  funext t
  by_cases ht : t ∈ rows
  · obtain ⟨i, hi⟩ := List.mem_iff_getElem?.1 ht
    exact sparseAt_getElem hn hi (h i t hi)
  · rw [sparseAt_eq_zero ht, hz t ht]

/-! ## Sequences of reflectors -/

/-- The first `k` reflectors, one after another. -/
noncomputable def reflectAll (m : Nat) (β : Nat → ℝ) (v : Nat → Nat → ℝ) : Nat → (Nat → ℝ) → Nat → ℝ
  | 0, x => x
  | k + 1, x => reflect m (β k) (v k) (reflectAll m β v k x)

theorem reflectAll_congr {m : Nat} {β β' : Nat → ℝ} {v v' : Nat → Nat → ℝ} {k : Nat} (h : ∀ i, i < k → β i = β' i ∧ v i = v' i) (x : Nat → ℝ) :
    reflectAll m β v k x = reflectAll m β' v' k x := by
  induction k with
  | zero => rfl
  | succ k ih => rw [reflectAll, reflectAll, ih (fun i hi => h i (by omega)), (h k (by omega)).1, (h k (by omega)).2]

theorem reflectAll_inner {m : Nat} {β : Nat → ℝ} {v : Nat → Nat → ℝ} {k : Nat} (h : ∀ i, i < k → Orthogonal m (β i) (v i)) (x y : Nat → ℝ) :
    ∑ s ∈ Finset.range m, reflectAll m β v k x s * reflectAll m β v k y s = ∑ s ∈ Finset.range m, x s * y s := by
  induction k with
  | zero => rfl
  | succ k ih => rw [reflectAll, reflectAll, reflect_inner (h k (by omega)), ih (fun i hi => h i (by omega))]

theorem reflectAll_add {m : Nat} {β : Nat → ℝ} {v : Nat → Nat → ℝ} {k : Nat} (x y : Nat → ℝ) :
    reflectAll m β v k (fun t => x t + y t) = fun t => reflectAll m β v k x t + reflectAll m β v k y t := by
  induction k with
  | zero => rfl
  | succ k ih => rw [reflectAll, ih, reflect_add]; rfl

theorem reflectAll_smul {m : Nat} {β : Nat → ℝ} {v : Nat → Nat → ℝ} {k : Nat} (c : ℝ) (x : Nat → ℝ) :
    reflectAll m β v k (fun t => c * x t) = fun t => c * reflectAll m β v k x t := by
  induction k with
  | zero => rfl
  | succ k ih => rw [reflectAll, ih, reflect_smul]; rfl

theorem reflectAll_sum {m : Nat} {β : Nat → ℝ} {v : Nat → Nat → ℝ} {k : Nat} {n : Nat} (z : Nat → ℝ) (x : Nat → Nat → ℝ) :
    reflectAll m β v k (fun t => ∑ j ∈ Finset.range n, z j * x j t) = fun t => ∑ j ∈ Finset.range n, z j * reflectAll m β v k (x j) t := by
  induction n with
  | zero =>
    have h := reflectAll_smul (m := m) (β := β) (v := v) (k := k) 0 (fun _ => 0)
    simp only [zero_mul] at h
    simp only [Finset.range_zero, Finset.sum_empty]
    exact h
  | succ n ih =>
    simp only [Finset.sum_range_succ]
    rw [reflectAll_add, ih, reflectAll_smul]

theorem reflectAll_mono {m : Nat} {β : Nat → ℝ} {v : Nat → Nat → ℝ} {x : Nat → ℝ} {t : Nat} {k : Nat} (k' : Nat) (hk : k ≤ k')
    (h : ∀ i, k ≤ i → i < k' → v i t = 0) : reflectAll m β v k' x t = reflectAll m β v k x t := by
  induction k' with
  | zero =>
    obtain rfl : k = 0 := by omega
    rfl
  | succ k' ih =>
    rcases Nat.eq_or_lt_of_le hk with rfl | hlt
    · rfl
    · rw [reflectAll, reflect, h k' (by omega) (by omega), ih (by omega) (fun i h1 h2 => h i h1 (by omega))]
      ring

/-! ## The reflectors of a factorisation -/

/-- The vector of reflector `k`. -/
noncomputable def hVec (h : SparseStructure) (hValues : List ℝ) (k : Nat) : Nat → ℝ := sparseAt (columnRows h k) (colVals h hValues k)

/-- The factor of reflector `k`. -/
def hBeta (hBetas : List ℝ) (k : Nat) : ℝ := hBetas.getD k 0

theorem hVec_zero {h : SparseStructure} {hValues : List ℝ} {k t : Nat} (ht : t ∉ columnRows h k) : hVec h hValues k t = 0 := sparseAt_eq_zero ht

section
variable {a : SparseStructure} {rp : List (Option Nat)} {r h : SparseStructure} {S : Nat → Nat → Nat → Prop} (sh : QrShape a rp r h S)
  {β : Nat → ℝ} {v : Nat → Nat → ℝ} (hv : ∀ k t, t ∉ columnRows h k → v k t = 0) {j : Nat} (hj : j < a.ncols) {x : Nat → ℝ}
  (hx : ∀ t, x t ≠ 0 → S 0 j t)
include sh hv hj hx

theorem reflectAll_support {k : Nat} (hk : k ≤ j) : ∀ t, reflectAll a.nrows β v k x t ≠ 0 → S k j t := by
  induction k with
  | zero => exact hx
  | succ k ih =>
    intro t ht
    have hih := ih (by omega)
    by_cases hmem : k ∈ columnRows r j
    · by_cases hth : t ∈ columnRows h k
      · exact sh.grow k j t hj hmem hth
      · rw [reflectAll, reflect, hv k t hth, zero_mul, sub_zero] at ht
        exact sh.mono k j t (hih t ht)
    · rw [reflectAll, reflect_disjoint] at ht
      · exact sh.mono k j t (hih t ht)
      · intro s _
        by_cases hs : reflectAll a.nrows β v k x s = 0
        · exact Or.inr hs
        · exact Or.inl (hv k s (sh.skip k j s hj (by omega) hmem (hih s hs)))

theorem reflectAll_skip {k : Nat} (hk : k < j) (hmem : k ∉ columnRows r j) : reflectAll a.nrows β v (k + 1) x = reflectAll a.nrows β v k x := by
  rw [reflectAll]
  apply reflect_disjoint
  intro s _
  by_cases hs : reflectAll a.nrows β v k x s = 0
  · exact Or.inr hs
  · exact Or.inl (hv k s (sh.skip k j s hj hk hmem (reflectAll_support sh hv hj hx (by omega) s hs)))

theorem reflectAll_gap {k : Nat} (k' : Nat) (hk : k ≤ k') (hk' : k' ≤ j) (hgap : ∀ i, k ≤ i → i < k' → i ∉ columnRows r j) :
    reflectAll a.nrows β v k' x = reflectAll a.nrows β v k x := by
  induction k' with
  | zero =>
    obtain rfl : k = 0 := by omega
    rfl
  | succ k' ih =>
    rcases Nat.eq_or_lt_of_le hk with rfl | hlt
    · rfl
    · rw [reflectAll_skip sh hv hj hx (by omega) (hgap k' (by omega) (by omega)), ih (by omega) (by omega) (fun i h1 h2 => hgap i h1 (by omega))]

end

end Fiksi
