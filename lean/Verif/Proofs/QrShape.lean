import Verif.Proofs.CholeskyStructure
import Verif.Proofs.PermuteColumns
import Verif.Model.Qr
/-!
# What the numeric factorisation needs of the symbolic one
-/
namespace Fiksi

open Spec

/-- The rows that can be reached by column `j` before reflector `k` is applied. -/
def Touched (a : SparseStructure) (parents rp : List (Option Nat)) (k j t : Nat) : Prop :=
  ∃ i f c, rp[i]? = some (some t) ∧ FirstCol a i f ∧ InR a parents c j ∧ Desc parents f c ∧ (c = f ∨ (c < k ∧ c ≤ t))

/-- The symbolic factorisation of a structure of full structural column rank. `S k j t` stands for: before reflector `k` is applied, column `j`
may be nonzero in row `t`. -/
structure QrShape (a : SparseStructure) (rp : List (Option Nat)) (r h : SparseStructure) (S : Nat → Nat → Nat → Prop) : Prop where
  rWf : WellFormed r
  hWf : WellFormed h
  rRows : r.nrows = a.ncols
  rCols : r.ncols = a.ncols
  hRows : h.nrows = a.nrows
  hCols : h.ncols = a.ncols
  le : a.ncols ≤ a.nrows
  real : ∀ i, i < a.nrows → ∃ p : Nat, rp[i]? = some (some p) ∧ p < a.nrows
  inj : ∀ i i' p : Nat, rp[i]? = some (some p) → rp[i']? = some (some p) → i = i'
  onto : ∀ p : Nat, p < a.nrows → ∃ i, i < a.nrows ∧ rp[i]? = some (some p)
  rLast : ∀ j, j < a.ncols → (columnRows r j).getLast? = some j
  rLe : ∀ j, j < a.ncols → ∀ k ∈ columnRows r j, k ≤ j
  hHead : ∀ j, j < a.ncols → (columnRows h j).head? = some j
  hGe : ∀ j, j < a.ncols → ∀ t ∈ columnRows h j, j ≤ t
  init : ∀ i j t, Has a i j → rp[i]? = some (some t) → S 0 j t
  mono : ∀ k j t, S k j t → S (k + 1) j t
  grow : ∀ k j t, j < a.ncols → k ∈ columnRows r j → t ∈ columnRows h k → S (k + 1) j t
  skip : ∀ k j t, j < a.ncols → k < j → k ∉ columnRows r j → S k j t → t ∉ columnRows h k
  low : ∀ j t, j < a.ncols → S j j t → t < j → t ∈ columnRows r j
  high : ∀ j t, j < a.ncols → S j j t → j ≤ t → t ∈ columnRows h j

theorem sorted_last {l : List Nat} (hs : l.Pairwise (· < ·)) {x : Nat} (hl : l.getLast? = some x) : ∀ y ∈ l, y ≤ x := by
  obtain ⟨l', rfl⟩ := List.getLast?_eq_some_iff.1 hl
  rw [List.pairwise_append] at hs
  intro y hy
  rcases List.mem_append.1 hy with hy | hy
  · exact le_of_lt (hs.2.2 y hy x (by simp))
  · simp at hy
    omega

theorem sorted_head {l : List Nat} (hs : l.Pairwise (· < ·)) {x : Nat} (hx : x ∈ l) (hle : ∀ y ∈ l, x ≤ y) : l.head? = some x := by
  cases l with
  | nil => simp at hx
  | cons y l =>
    rw [List.head?_cons]
    rcases List.mem_cons.1 hx with rfl | hx
    · rfl
    · have h1 := (List.pairwise_cons.1 hs).1 x hx
      have h2 := hle y List.mem_cons_self
      omega

theorem Setting.qrShape {a : SparseStructure} {parents : List (Option Nat)} {post : List Nat} (s : Setting a parents post) (hr : FullRank a) :
    ∃ counts, CholeskyCounts.build a parents post = .ok counts ∧ ∃ cs, CholeskyStructure.build a parents post counts = .ok cs ∧
      QrShape a cs.rowPermutation cs.lStructure cs.hStructure (Touched a parents cs.rowPermutation) := by
  have t := s.tree
  obtain ⟨counts, h3, cs, h4, total, rcols, hcols, h5, h6, h7, h8⟩ := s.structure_spec
  have htotal := h5.total_eq s hr
  subst htotal
  refine ⟨counts, h3, cs, h4, ?_⟩
  generalize cs.rowPermutation = rp at h5 h6 ⊢
  have hrw : WellFormed (ofColumns a.ncols rcols) := ofColumns_wellFormed h6.rsorted (by
    intro l hl i hi
    obtain ⟨c, hc⟩ := List.mem_iff_getElem?.1 hl
    have hcn : c < a.ncols := by rw [← h6.rlen]; exact (List.getElem?_eq_some_iff.1 hc).1
    rcases (h6.rmem c l hc i).1 hi with rfl | ⟨_, _, _, hb⟩
    · exact hcn
    · exact (t.below_bound hb).1)
  have honto : ∀ p : Nat, p < a.nrows → ∃ i, i < a.nrows ∧ rp[i]? = some (some p) := by
    have hreal := h5.real
    choose! g hg hg' using hreal
    have hsurj : Set.SurjOn g (Finset.range a.nrows) (Finset.range a.nrows) := by
      apply Finset.surjOn_of_injOn_of_card_le
      · intro i hi
        simp only [Finset.coe_range, Set.mem_Iio] at hi ⊢
        exact hg' i hi
      · intro i hi i' hi' heq
        simp only [Finset.coe_range, Set.mem_Iio] at hi hi'
        exact h5.inj i i' (g i) (hg i hi) (by rw [heq]; exact hg i' hi')
      · exact le_rfl
    intro p hp
    obtain ⟨i, hi, rfl⟩ := hsurj (by simpa using hp : p ∈ (Finset.range a.nrows : Set Nat))
    simp only [Finset.coe_range, Set.mem_Iio] at hi
    exact ⟨i, hi, hg i hi⟩
  have hxm : ∀ i x : Nat, rp[i]? = some (some x) → x < a.nrows := by
    intro i x hx
    obtain ⟨p, hp1, hp2⟩ := h5.real i (h5.used i x hx)
    rw [hx] at hp1
    simp only [Option.some.injEq] at hp1
    omega
  have hhw : WellFormed (ofColumns a.nrows hcols) := ofColumns_wellFormed h6.hsorted (by
    intro l hl x hx
    obtain ⟨c, hc⟩ := List.mem_iff_getElem?.1 hl
    have hcn : c < a.ncols := by rw [← h6.hlen]; exact (List.getElem?_eq_some_iff.1 hc).1
    rcases (h6.hmem c l hc x).1 hx with rfl | ⟨_, i, f, h9, _, _⟩
    · exact lt_of_lt_of_le hcn h5.colsLe
    · exact hxm i x h9)
  have hrcol : ∀ j, j < a.ncols → ∃ l : List Nat, rcols[j]? = some l ∧ columnRows cs.lStructure j = l := by
    intro j hj
    have hl : rcols[j]? = some (rcols[j]'(by rw [h6.rlen]; exact hj)) := List.getElem?_eq_getElem _
    exact ⟨_, hl, by rw [h7]; exact ofColumns_columnRows hl⟩
  have hhcol : ∀ j, j < a.ncols → ∃ l : List Nat, hcols[j]? = some l ∧ columnRows cs.hStructure j = l := by
    intro j hj
    have hl : hcols[j]? = some (hcols[j]'(by rw [h6.hlen]; exact hj)) := List.getElem?_eq_getElem _
    exact ⟨_, hl, by rw [h8]; exact ofColumns_columnRows hl⟩
  have hrm : ∀ j, j < a.ncols → ∀ k, k ∈ columnRows cs.lStructure j ↔ InR a parents k j := by
    intro j hj k
    obtain ⟨l, e1, e2⟩ := hrcol j hj
    rw [e2]
    exact h6.rmem j l e1 k
  have hhm : ∀ j, j < a.ncols → ∀ k, k ∈ columnRows cs.hStructure j ↔ HSet a parents rp j k := by
    intro j hj k
    obtain ⟨l, e1, e2⟩ := hhcol j hj
    rw [e2]
    exact h6.hmem j l e1 k
  have hInR : ∀ {k j}, InR a parents k j → k ≤ j := by
    rintro k j (rfl | ⟨_, _, _, hb⟩)
    · exact le_rfl
    · exact le_of_lt (t.below_bound hb).2.2
  have hup : ∀ {c k j}, InR a parents c j → Desc parents c k → k < j → InR a parents k j := by
    rintro c k j (rfl | ⟨f, g1, g2, g3⟩) hd hlt
    · have := t.desc_le hd
      omega
    · exact Or.inr ⟨f, g1, g2.trans hd, t.below_of_lt hd g3.desc hlt⟩
  have hset : ∀ {k x}, k < a.ncols → HSet a parents rp k x → ∃ i f, rp[i]? = some (some x) ∧ FirstCol a i f ∧ Desc parents f k ∧ k ≤ x := by
    rintro k x hk (rfl | ⟨g1, i, f, g2, g3, g4⟩)
    · obtain ⟨i, hi⟩ := h5.owner x hk
      obtain ⟨f, g1, g2⟩ := h5.anc i x (h5.used i x hi) hi hk
      exact ⟨i, f, hi, g1, g2, le_rfl⟩
    · exact ⟨i, f, g2, g3, g4, by omega⟩
  constructor
  · rw [h7]; exact hrw
  · rw [h8]; exact hhw
  · rw [h7]; rfl
  · rw [h7]; exact h6.rlen
  · rw [h8]; rfl
  · rw [h8]; exact h6.hlen
  · exact h5.colsLe
  · exact h5.real
  · exact h5.inj
  · exact honto
  · intro j hj
    obtain ⟨l, e1, e2⟩ := hrcol j hj
    rw [e2]
    exact h6.rlast j l e1
  · intro j hj k hk
    exact hInR ((hrm j hj k).1 hk)
  · intro j hj
    obtain ⟨l, e1, e2⟩ := hhcol j hj
    rw [e2]
    refine sorted_head (h6.hsorted l (List.mem_of_getElem? e1)) ((h6.hmem j l e1 j).2 (Or.inl rfl)) ?_
    intro y hy
    rcases (h6.hmem j l e1 y).1 hy with rfl | ⟨g1, _⟩
    · exact le_rfl
    · omega
  · intro j hj x hx
    rcases (hhm j hj x).1 hx with rfl | ⟨g1, _⟩
    · exact le_rfl
    · omega
  · intro i j x hij hx
    obtain ⟨f, hf⟩ := s.exists_first hij
    refine ⟨i, f, f, hx, hf, ?_, .refl f, Or.inl rfl⟩
    by_cases hfj : f = j
    · exact Or.inl hfj
    · have hlt : f < j := lt_of_le_of_ne (hf.2 j hij) hfj
      exact Or.inr ⟨f, ⟨i, hf, hij, hlt⟩, .refl f, s.row_below hf.1 hij hlt⟩
  · rintro k j x ⟨i, f, c, g1, g2, g3, g4, g5⟩
    refine ⟨i, f, c, g1, g2, g3, g4, ?_⟩
    rcases g5 with g5 | ⟨g5, g6⟩
    · exact Or.inl g5
    · exact Or.inr ⟨by omega, g6⟩
  · intro k j x hj hk hx
    have hk' := (hrm j hj k).1 hk
    have hkn : k < a.ncols := by have := hInR hk'; omega
    obtain ⟨i, f, g1, g2, g3, g4⟩ := hset hkn ((hhm k hkn x).1 hx)
    exact ⟨i, f, k, g1, g2, hk', g3, Or.inr ⟨by omega, g4⟩⟩
  · rintro k j x hj hkj hk ⟨i, f, c, g1, g2, g3, g4, g5⟩ hx
    rw [hrm j hj] at hk
    obtain ⟨i', f', g6, g7, g8, g9⟩ := hset (by omega) ((hhm k (by omega) x).1 hx)
    obtain rfl := h5.inj _ _ _ g1 g6
    obtain rfl := FirstCol_unique g2 g7
    rcases Nat.lt_or_ge k c with hkc | hkc
    · rcases g5 with rfl | ⟨g5, _⟩
      · have := t.desc_le g8
        omega
      · omega
    · exact hk (hup g3 (t.desc_of_le g4 g8 hkc) hkj)
  · rintro j x hj ⟨i, f, c, g1, g2, g3, g4, g5⟩ hxj
    rw [hrm j hj]
    obtain ⟨f', g6, g7⟩ := h5.anc i x (h5.used i x g1) g1 (by omega)
    obtain rfl := FirstCol_unique g2 g6
    have hcx : c ≤ x := by
      rcases g5 with rfl | ⟨_, g5⟩
      · exact t.desc_le g7
      · exact g5
    exact hup g3 (t.desc_of_le g4 g7 hcx) hxj
  · rintro j x hj ⟨i, f, c, g1, g2, g3, g4, g5⟩ hxj
    rw [hhm j hj]
    rcases Nat.eq_or_lt_of_le hxj with rfl | hlt
    · exact Or.inl rfl
    · refine Or.inr ⟨hlt, i, f, g1, g2, ?_⟩
      rcases g3 with rfl | ⟨_, _, _, hb⟩
      · exact g4
      · exact g4.trans hb.desc

end Fiksi
