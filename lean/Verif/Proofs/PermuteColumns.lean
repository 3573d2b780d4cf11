import Verif.Proofs.TryFromData
/-!
# Permuting columns
-/
namespace Fiksi

open Spec

variable {T : Type}

/-- The positions of the permuted structure. -/
def permPositions (s : SparseStructure) (l : List (Nat × Nat)) : List (Nat × Nat) :=
  l.flatMap (fun p => (columnRows s p.1).map (fun i => (p.2, i)))

theorem Spec.WellFormed.columnRows_sorted {s : SparseStructure} (h : WellFormed s) {j : Nat} (hj : j < s.ncols) :
    (columnRows s j).Pairwise (· < ·) :=
  sorted_slice.2 (h.sorted j _ _ (h.pointer (by omega)) (h.pointer (by omega)))

theorem Spec.WellFormed.mem_columnRows {s : SparseStructure} (h : WellFormed s) {i j : Nat} (hj : j < s.ncols) :
    i ∈ columnRows s j ↔ Has s i j := by
  rw [columnRows, mem_slice]
  constructor
  · rintro ⟨p, h1, h2, h3⟩
    exact ⟨p, _, _, h.pointer (by omega), h.pointer (by omega), h1, h2, h3⟩
  · rintro ⟨p, a, b, h1, h2, h3, h4, h5⟩
    rw [h.pointer (by omega)] at h1 h2
    obtain rfl := Option.some.inj h1
    obtain rfl := Option.some.inj h2
    exact ⟨p, h3, h4, h5⟩

theorem permuteColumns_spec {s : SparseStructure} (h : WellFormed s) {perm : List Nat} (hperm : ∀ c ∈ perm, c < s.ncols) {values : List T}
    (hv : values.length = s.rowIndices.length) :
    permuteColumnsWithValues s perm values = .ok ⟨structOf s.nrows perm.length (permPositions s perm.zipIdx),
      (List.replicate perm.length values).flatten⟩ ∧ PositionsOk s.nrows perm.length (permPositions s perm.zipIdx) := by
  obtain ⟨⟨rows, ptrs, vals⟩, h1, h2, h3, h4, h5, h6, h7⟩ := foldlM_prefix (fun (pre : List (Nat × Nat)) (st : List Nat × List Nat × List T) =>
      st.1 = (permPositions s pre).map Prod.snd ∧ st.2.1.length = pre.length + 1 ∧
      (∀ c, c ≤ pre.length → st.2.1[c]? = some (before (permPositions s pre) c)) ∧
      st.2.2 = (List.replicate pre.length values).flatten ∧ (permPositions s pre).Pairwise lexLt ∧
      ∀ d ∈ permPositions s pre, d.1 < pre.length ∧ d.2 < s.nrows) (permuteColumn s values) perm.zipIdx ([], [0], [])
      ⟨rfl, rfl, by
        intro c hc
        rw [List.length_nil, Nat.le_zero] at hc
        subst hc
        rfl, rfl, List.Pairwise.nil, by simp [permPositions]⟩ (by
    rintro pre ⟨c, k⟩ post ⟨rows, ptrs, vals⟩ hl ⟨e1, e2, e3, e4, e5, e6⟩
    simp only at e1 e2 e3 e4
    have hk : perm.zipIdx[pre.length]? = some (c, k) := by rw [hl]; simp
    rw [List.getElem?_zipIdx, Option.map_eq_some_iff] at hk
    obtain ⟨c', hc', hck⟩ := hk
    simp only [Nat.zero_add, Prod.mk.injEq] at hck
    obtain ⟨rfl, rfl⟩ := hck
    have hc := hperm c' (List.mem_of_getElem? hc')
    have hbl : before (permPositions s pre) pre.length = (permPositions s pre).length := before_eq_length (fun d hd => (e6 d hd).1)
    have hpos : permPositions s (pre ++ [(c', pre.length)]) = permPositions s pre ++ (columnRows s c').map (fun i => (pre.length, i)) := by
      simp [permPositions]
    refine ⟨(rows ++ columnRows s c', ptrs ++ [(permPositions s pre).length + (columnRows s c').length], vals ++ values), ?_, ?_, ?_, ?_, ?_, ?_, ?_⟩
    · rw [permuteColumn, h.indexColumn hc]
      simp only [ok_bind]
      rw [idx_of (e3 _ (le_refl _)), ok_bind, hbl]
      rfl
    · simp only [e1, hpos, List.map_append, List.map_map]
      congr 1
      rw [show (Prod.snd ∘ fun i => (pre.length, i)) = (id : Nat → Nat) from rfl, List.map_id]
    · simp [e2]
    · intro c hcl
      simp only [List.length_append, List.length_singleton] at hcl
      simp only
      by_cases hcp : c ≤ pre.length
      · rw [List.getElem?_append_left (by omega), e3 c hcp, hpos]
        congr 1
        rw [before, before, List.countP_append]
        have : ((columnRows s c').map (fun i => (pre.length, i))).countP (fun d => decide (d.1 < c)) = 0 := by
          rw [List.countP_eq_zero]
          intro d hd
          obtain ⟨i, -, rfl⟩ := List.mem_map.1 hd
          simpa using hcp
        omega
      · have : c = pre.length + 1 := by omega
        subst this
        rw [List.getElem?_append_right (by omega), e2, Nat.sub_self, List.getElem?_cons_zero, before_eq_length, hpos]
        · simp
        · intro d hd
          rw [hpos] at hd
          rcases List.mem_append.1 hd with hd | hd
          · have := (e6 d hd).1; omega
          · obtain ⟨i, -, rfl⟩ := List.mem_map.1 hd
            exact Nat.lt_succ_self _
    · simp only [e4, List.length_append, List.length_singleton, List.replicate_succ', List.flatten_append, List.flatten_cons,
        List.flatten_nil, List.append_nil]
    · rw [hpos, List.pairwise_append]
      refine ⟨e5, ?_, ?_⟩
      · rw [List.pairwise_map]
        exact (h.columnRows_sorted hc).imp (fun {a b} hab => Or.inr ⟨rfl, hab⟩)
      · intro a ha b hb
        obtain ⟨i, -, rfl⟩ := List.mem_map.1 hb
        exact Or.inl (e6 a ha).1
    · intro d hd
      rw [hpos] at hd
      rcases List.mem_append.1 hd with hd | hd
      · have := e6 d hd
        simp only [List.length_append, List.length_singleton]
        exact ⟨by omega, this.2⟩
      · obtain ⟨i, hi, rfl⟩ := List.mem_map.1 hd
        simp only [List.length_append, List.length_singleton]
        exact ⟨by omega, h.columnRows_bound hi⟩)
  simp only [List.length_zipIdx] at h2 h3 h4 h5 h6 h7
  refine ⟨?_, h6, h7⟩
  rw [permuteColumnsWithValues, if_neg (by simpa using hv), h1]
  simp only [ok_bind, pure_eq_ok, Except.ok.injEq, SparseColMat.mk.injEq, structOf, SparseStructure.mk.injEq, true_and]
  refine ⟨⟨h2, ?_⟩, h5⟩
  apply List.ext_getElem?
  intro c
  by_cases hc : c ≤ perm.length
  · rw [h4 c hc, List.getElem?_map, List.getElem?_range (by omega)]
    rfl
  · rw [List.getElem?_eq_none (by omega), List.getElem?_eq_none (by simp; omega)]

theorem mem_permPositions {s : SparseStructure} (h : WellFormed s) {perm : List Nat} (hperm : ∀ c ∈ perm, c < s.ncols) {i k : Nat} :
    (k, i) ∈ permPositions s perm.zipIdx ↔ ∃ c, perm[k]? = some c ∧ Has s i c := by
  rw [permPositions, List.mem_flatMap]
  constructor
  · rintro ⟨⟨c, k'⟩, h1, h2⟩
    obtain ⟨i', h3, h4⟩ := List.mem_map.1 h2
    simp only [Prod.mk.injEq] at h4
    obtain ⟨rfl, rfl⟩ := h4
    have := List.mem_zipIdx_iff_getElem?.1 h1
    simp only at this
    exact ⟨c, this, (h.mem_columnRows (hperm c (List.mem_of_getElem? this))).1 h3⟩
  · rintro ⟨c, h1, h2⟩
    refine ⟨(c, k), List.mem_zipIdx_iff_getElem?.2 h1, List.mem_map.2 ⟨i, ?_, rfl⟩⟩
    exact (h.mem_columnRows (hperm c (List.mem_of_getElem? h1))).2 h2

end Fiksi
