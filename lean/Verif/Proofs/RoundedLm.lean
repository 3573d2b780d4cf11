import Verif.Proofs.QrAny
import Verif.Props.QrRounded
import Verif.Proofs.RoundedSums
/-!
# The damped least-squares problem of Levenberg–Marquardt in rounded arithmetic
-/
namespace Fiksi

open Spec

section
variable {F : Type} [Add F] [Sub F] [Mul F] [Div F] [Neg F] [Zero F] [One F] [FloatOps F]

/-- `J` has at each of the first `m` rows and `n` columns the sum of the values of the triplets there, in some order, and zero where there is none. -/
def Spec.AssembledFrom (ts : List (Nat × Nat × F)) (m : Nat) (J : Nat → Nat → F) : Prop :=
  ∀ i j, i < m → ((i, j) ∉ Spec.positions ts → J i j = 0) ∧
    ((i, j) ∈ Spec.positions ts → ∃ l, l.Perm ((ts.filter (fun t => t.1 = i ∧ t.2.1 = j)).map (fun t => t.2.2)) ∧ sumList l = some (J i j))

/-- The matrix `J` with a multiple `μ` of the identity below its `m` rows. -/
def Spec.damped (J : Nat → Nat → F) (m : Nat) (μ : F) (i j : Nat) : F := if i < m then J i j else if i = m + j then μ else 0

/-- The compressed matrix, before and after the damping is set. -/
theorem damped_any {sort : SortByKey} (hsort : Sorts sort) {m n : Nat} {ts : List (Nat × Nat × F)} (h : Spec.Augmented m n ts) :
    ∃ a J, SparseColMat.fromTripletMat sort (tripletsOf m n ts) = .ok a ∧ AssembledFrom ts m J ∧ ∀ μ, ∃ a', (List.range n).foldlM (setDamping μ) a = .ok a' ∧
      MatWellFormed a' ∧ a'.structure'.nrows = m + n ∧ a'.structure'.ncols = n ∧
      (∀ i j, Has a'.structure' i j ↔ (i, j) ∈ Spec.positions ts) ∧ ∃ U, Represents a' U ∧ ∀ i j, j < n → U i j = damped J m μ i j := by
  obtain ⟨t1, t2, t3, t4⟩ := tripletsOf_spec h
  obtain ⟨a, h1, h2, h3, h4, h5', h6⟩ := C31_from_triplets hsort t1
  have h5 : ∀ i j, Has a.structure' i j ↔ (i, j) ∈ Spec.positions ts := fun i j => by rw [h5', tripletValues_iff h]
  rw [t3] at h3
  rw [t4] at h4
  have hrep := (entryAt_represents h2.1 h2.2).2
  set J := entryAt a.structure' a.values with hJ
  refine ⟨a, J, h1, ?_, ?_⟩
  · intro i j _
    refine ⟨fun hno => hrep.zero i j (fun hh => hno ((h5 i j).1 hh)), fun hyes => ?_⟩
    obtain ⟨p, hp⟩ := (h5 i j).2 hyes
    have hpl : p < a.values.length := by
      obtain ⟨s, e, -, -, -, -, h⟩ := hp
      rw [h2.2]
      exact (List.getElem?_eq_some_iff.1 h).1
    have hst : Stored a i j a.values[p] := ⟨p, hp, List.getElem?_eq_getElem hpl⟩
    obtain ⟨l, l1, l2⟩ := h6 i j _ hst
    rw [tripletValues, t2] at l1
    exact ⟨l, l1, by rw [l2, hrep.stored i j _ hst]⟩
  intro μ
  have hpos := fun j (hj : j < n) => damping_position h h2.1 h4 h5 hj
  obtain ⟨a', g1, g2, g3, g4, g5⟩ := setDamping_spec h2 μ (fun j hj => (hpos j (by omega)).1)
  rw [h4] at g1 g4 g5
  refine ⟨a', g1, ⟨by rw [g2]; exact h2.1, by rw [g2, g3, h2.2]⟩, by rw [g2, h3], by rw [g2, h4], by rw [g2]; exact h5,
    fun i j => if j < n then damped J m μ i j else 0, ⟨?_, ?_⟩, fun i j hj => by beta_reduce; rw [if_pos hj]⟩
  · rintro i j v ⟨p, hp, hv⟩
    rw [g2] at hp
    have hij := h.position ((h5 i j).1 ⟨p, hp⟩)
    obtain ⟨hj, hij⟩ := hij
    have hlast := (hpos j hj).2 i p hp
    rw [if_pos hj, damped]
    by_cases hm : i < m
    · rw [if_pos hm]
      have hnot : ∀ j', j' < n → p ≠ a.structure'.columnPointers.getD (j' + 1) 0 - 1 := by
        intro j' hj' he
        obtain ⟨start, stop, k1, k2, k3, k4, k5⟩ := hp
        have e1 : a.structure'.columnPointers.getD j 0 = start := by rw [List.getD_eq_getElem?_getD, k1]; rfl
        have e2 : a.structure'.columnPointers.getD (j + 1) 0 = stop := by rw [List.getD_eq_getElem?_getD, k2]; rfl
        rcases Nat.lt_trichotomy j j' with hlt | rfl | hgt
        · have := h2.1.pointer_mono (i := j + 1) (j := j') (by omega) (by omega)
          have := (hpos j' hj').1
          omega
        · have := hlast.2 he
          omega
        · have := h2.1.pointer_mono (i := j' + 1) (j := j) (by omega) (by omega)
          have := (hpos j' hj').1
          omega
      rw [g5 p hnot] at hv
      exact hrep.stored i j v ⟨p, hp, hv⟩
    · rw [if_neg hm, if_pos (by omega)]
      have := hlast.1 (by omega)
      rw [this, g4 j hj] at hv
      exact Option.some.inj hv
  · intro i j hno
    rw [g2] at hno
    split
    · rename_i hj
      rw [damped]
      split
      · exact hrep.zero i j hno
      · rw [if_neg]
        rintro rfl
        exact hno ((h5 _ _).2 (h.damping hj))
    · rfl

end

/-! ## Nearby damped problems -/

theorem nrm_sum {m : Nat} (f : Nat → Nat → ℝ) : ∀ n, nrm m (fun i => ∑ c ∈ Finset.range n, f c i) ≤ ∑ c ∈ Finset.range n, nrm m (f c) := by
  intro n
  induction n with
  | zero => simp [nrm]
  | succ n ih =>
    simp only [Finset.sum_range_succ]
    exact (nrm_add _ _).trans (by linarith)

/-- A matrix near a damped one lengthens by at least half the damping, if the damping is large compared with the error. -/
theorem damped_lower {m n : Nat} {J A' : Nat → Nat → ℝ} {δ μ : ℝ} (hδ : 0 ≤ δ) (hμ : 0 ≤ μ) (hclose : CloseColumns δ A' (damped J m μ) (m + n) n)
    (hsmall : δ ^ 2 * (∑ c ∈ Finset.range n, ∑ i ∈ Finset.range m, J i c ^ 2 + n * μ ^ 2) ≤ (μ / 2) ^ 2) (z : Nat → ℝ) :
    μ / 2 * nrm n z ≤ nrm (m + n) (fun i => ∑ c ∈ Finset.range n, A' i c * z c) := by
  have hcol : ∀ c, c < n → ∑ i ∈ Finset.range (m + n), damped J m μ i c ^ 2 = ∑ i ∈ Finset.range m, J i c ^ 2 + μ ^ 2 := by
    intro c hc
    rw [Finset.sum_range_add]
    congr 1
    · exact Finset.sum_congr rfl (fun i hi => by rw [damped, if_pos (Finset.mem_range.1 hi)])
    · rw [Finset.sum_eq_single c]
      · rw [damped, if_neg (by omega), if_pos rfl]
      · intro i _ hi
        rw [damped, if_neg (by omega), if_neg (by omega)]
        norm_num
      · intro h
        exact absurd (Finset.mem_range.2 hc) h
  have hA : μ * nrm n z ≤ nrm (m + n) (fun i => ∑ c ∈ Finset.range n, damped J m μ i c * z c) := by
    apply le_of_sq_le_sq _ (nrm_nonneg _)
    rw [sq (nrm _ _), nrm_mul_self, mul_pow, sq (nrm _ _), nrm_mul_self, Finset.sum_range_add, Finset.mul_sum]
    have h1 : ∀ i ∈ Finset.range n, μ ^ 2 * (z i * z i) = (∑ c ∈ Finset.range n, damped J m μ (m + i) c * z c) * ∑ c ∈ Finset.range n, damped J m μ (m + i) c * z c := by
      intro i hi
      rw [Finset.sum_eq_single i]
      · rw [damped, if_neg (by omega), if_pos rfl]
        ring
      · intro c _ hc
        rw [damped, if_neg (by omega), if_neg (by omega), zero_mul]
      · intro h
        exact absurd hi h
    rw [Finset.sum_congr rfl h1]
    have := Finset.sum_nonneg (s := Finset.range m) (f := fun i => (∑ c ∈ Finset.range n, damped J m μ i c * z c) * ∑ c ∈ Finset.range n, damped J m μ i c * z c)
      (fun i _ => mul_self_nonneg _)
    linarith
  have hE : nrm (m + n) (fun i => ∑ c ∈ Finset.range n, (damped J m μ i c - A' i c) * z c) ≤ μ / 2 * nrm n z := by
    have h1 : ∀ c ∈ Finset.range n, nrm (m + n) (fun i => (damped J m μ i c - A' i c) * z c) ≤
        |nrm (m + n) (fun i => damped J m μ i c)| * |z c| * δ := by
      intro c hc
      have h2 : nrm (m + n) (fun i => damped J m μ i c - A' i c) ≤ δ * nrm (m + n) (fun i => damped J m μ i c) := by
        apply le_of_sq_le_sq _ (mul_nonneg hδ (nrm_nonneg _))
        rw [mul_pow, sq (nrm _ _), sq (nrm _ _), nrm_mul_self, nrm_mul_self]
        refine le_trans (le_of_eq ?_) ((hclose c (Finset.mem_range.1 hc)).trans (le_of_eq ?_))
        · exact Finset.sum_congr rfl (fun i _ => by ring)
        · congr 1
          exact Finset.sum_congr rfl (fun i _ => by ring)
      have h3 : (fun i => (damped J m μ i c - A' i c) * z c) = fun i => z c * (damped J m μ i c - A' i c) := funext (fun i => mul_comm _ _)
      rw [h3, nrm_smul, abs_of_nonneg (nrm_nonneg _)]
      have := mul_le_mul_of_nonneg_left h2 (abs_nonneg (z c))
      linarith
    refine (nrm_sum (fun c i => (damped J m μ i c - A' i c) * z c) n).trans ((Finset.sum_le_sum h1).trans ?_)
    rw [← Finset.sum_mul]
    have h4 := nrm_inner_abs (m := n) (fun c => nrm (m + n) (fun i => damped J m μ i c)) z
    have h5 : δ * nrm n (fun c => nrm (m + n) (fun i => damped J m μ i c)) ≤ μ / 2 := by
      apply le_of_sq_le_sq _ (by linarith)
      refine le_trans (le_of_eq ?_) hsmall
      rw [mul_pow, sq (nrm n _), nrm_mul_self]
      congr 1
      rw [Finset.sum_congr rfl (g := fun c => ∑ i ∈ Finset.range m, J i c ^ 2 + μ ^ 2)]
      · rw [Finset.sum_add_distrib, Finset.sum_const, Finset.card_range, nsmul_eq_mul]
      · intro c hc
        rw [nrm_mul_self, ← hcol c (Finset.mem_range.1 hc)]
        exact Finset.sum_congr rfl (fun i _ => by ring)
    calc _ ≤ nrm n (fun c => nrm (m + n) (fun i => damped J m μ i c)) * nrm n z * δ := mul_le_mul_of_nonneg_right h4 hδ
      _ = δ * nrm n (fun c => nrm (m + n) (fun i => damped J m μ i c)) * nrm n z := by ring
      _ ≤ _ := mul_le_mul_of_nonneg_right h5 (nrm_nonneg _)
  have h := nrm_add (m := m + n) (fun i => ∑ c ∈ Finset.range n, A' i c * z c) (fun i => ∑ c ∈ Finset.range n, (damped J m μ i c - A' i c) * z c)
  have he : (fun i => ∑ c ∈ Finset.range n, A' i c * z c + ∑ c ∈ Finset.range n, (damped J m μ i c - A' i c) * z c) =
      fun i => ∑ c ∈ Finset.range n, damped J m μ i c * z c := by
    funext i
    rw [← Finset.sum_add_distrib]
    exact Finset.sum_congr rfl (fun c _ => by ring)
  rw [he] at h
  linarith

/-- The image of a minimiser is at most twice as long as the right-hand side. -/
theorem minimiser_image {A : Nat → Nat → ℝ} {m n : Nat} {b x : List ℝ} (h : OnlyMinimiser A m n b x) :
    nrm m (fun i => ∑ c ∈ Finset.range n, A i c * x.getD c 0) ≤ 2 * nrm m (fun i => b.getD i 0) := by
  have h1 := (h []).1
  have h2 : nrm m (fun i => ∑ c ∈ Finset.range n, A i c * x.getD c 0 - b.getD i 0) ≤ nrm m (fun i => b.getD i 0) := by
    apply Real.sqrt_le_sqrt
    refine le_trans (le_of_eq ?_) (h1.trans (le_of_eq ?_))
    · rw [residualSquared]
      exact Finset.sum_congr rfl (fun i _ => by ring)
    · rw [residualSquared]
      exact Finset.sum_congr rfl (fun i _ => by simp; ring)
  have h3 := nrm_add (m := m) (fun i => ∑ c ∈ Finset.range n, A i c * x.getD c 0 - b.getD i 0) (fun i => b.getD i 0)
  have e : (fun i => ∑ c ∈ Finset.range n, A i c * x.getD c 0 - b.getD i 0 + b.getD i 0) = fun i => ∑ c ∈ Finset.range n, A i c * x.getD c 0 :=
    funext (fun i => by ring)
  rw [e] at h3
  linarith

end Fiksi
