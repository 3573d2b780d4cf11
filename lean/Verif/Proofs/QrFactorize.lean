import Verif.Proofs.QrNumeric
/-!
# The loops of the numeric factorisation
-/
namespace Fiksi

open Spec

theorem getD_set {T : Type} [Zero T] (l : List T) (i : Nat) (hi : i < l.length) (y : T) (t : Nat) : (l.set i y).getD t 0 = if t = i then y else l.getD t 0 := by
  by_cases h : t = i
  · subst h
    rw [if_pos rfl, List.getD_eq_getElem?_getD, List.getElem?_set_self hi]
    rfl
  · rw [if_neg h, List.getD_eq_getElem?_getD, List.getElem?_set_ne (Ne.symm h), List.getD_eq_getElem?_getD]

theorem getElem?_of_getD {T : Type} [Zero T] {l : List T} {i : Nat} (hi : i < l.length) : l[i]? = some (l.getD i 0) := by
  rw [List.getD_eq_getElem?_getD, List.getElem?_eq_getElem hi]
  rfl

section
variable {a : SparseStructure} {s : SymbolicQr} {S : Nat → Nat → Nat → Prop}
  (sh : QrShape a s.rowPermutation s.rStructure s.hStructure S) {j : Nat} (hj : j < a.ncols)
include sh hj

/-- The loop over the entries of a column of `R`. -/
theorem reduce_spec {hValues hBetas x₀ rv : List ℝ} (hhv : hValues.length = s.hStructure.rowIndices.length) (hhb : hBetas.length = a.ncols)
    (hx₀ : x₀.length = a.nrows) (hrv : rv.length = s.rStructure.rowIndices.length) (hx : ∀ t, x₀.getD t 0 ≠ 0 → S 0 j t) {y : Nat → Nat → ℝ}
    (hy : ∀ k, y k = reflectAll a.nrows (hBeta hBetas) (hVec s.hStructure hValues) k (fun t => x₀.getD t 0)) :
    ∃ x₁ rv₁, (columnRows s.rStructure j).zipIdx.foldlM (reduceEntry s hValues hBetas j) (x₀, rv) = .ok (x₁, rv₁) ∧ x₁.length = a.nrows ∧
      rv₁.length = rv.length ∧ (∀ t, x₁.getD t 0 = if t < j ∧ t ∈ columnRows s.rStructure j then 0 else y j t) ∧
      (∀ i k : Nat, (columnRows s.rStructure j)[i]? = some k → k < j → rv₁[s.rStructure.columnPointers.getD j 0 + i]? = some (y j k)) ∧
      ∀ p, p < s.rStructure.columnPointers.getD j 0 ∨ s.rStructure.columnPointers.getD (j + 1) 0 ≤ p → rv₁[p]? = rv[p]? := by
  have hjr : j < s.rStructure.ncols := by rw [sh.rCols]; exact hj
  have hsort := sh.rWf.columnRows_sorted hjr
  have hv : ∀ k t, t ∉ columnRows s.hStructure k → hVec s.hStructure hValues k t = 0 := fun k t ht => hVec_zero ht
  obtain ⟨⟨x₁, rv₁⟩, h1, h2, h3, h4, h5, h6⟩ := foldlM_prefix (fun (pre : List (Nat × Nat)) (st : List ℝ × List ℝ) =>
      st.1.length = a.nrows ∧ st.2.length = rv.length ∧
      (∀ K, K ≤ j → (∀ t, t < j → t ∈ columnRows s.rStructure j → (t < K ↔ t ∈ pre.map Prod.fst)) →
        ∀ t, st.1.getD t 0 = if t < j ∧ t ∈ pre.map Prod.fst then 0 else y K t) ∧
      (∀ p ∈ pre, p.1 < j → st.2[s.rStructure.columnPointers.getD j 0 + p.2]? = some (y j p.1)) ∧
      (∀ p, p < s.rStructure.columnPointers.getD j 0 ∨ s.rStructure.columnPointers.getD (j + 1) 0 ≤ p → st.2[p]? = rv[p]?))
    (reduceEntry s hValues hBetas j) (columnRows s.rStructure j).zipIdx (x₀, rv)
    ⟨hx₀, rfl, by
      intro K hK hgap t
      simp only [List.map_nil, List.not_mem_nil, and_false, if_false]
      have := reflectAll_gap sh hv hj hx (β := hBeta hBetas) (k := 0) K (Nat.zero_le _) hK (fun i _ hi hmem => by
        have := (hgap i (by omega) hmem).1 hi
        simp at this)
      rw [hy, this]
      rfl, by simp, fun _ _ => rfl⟩ (by
    rintro pre ⟨k, i⟩ post ⟨x, w⟩ hl ⟨e1, e2, e3, e4, e5⟩
    simp only at e1 e2 e3 e4 e5
    obtain ⟨hi, hsplit, hki⟩ := zipIdx_split hl
    have hkmem : k ∈ columnRows s.rStructure j := List.mem_of_getElem? hki
    have hkj := sh.rLe j hj k hkmem
    have hilt := (List.getElem?_eq_some_iff.1 hki).1
    have hpos := columnRows_lt sh.rWf hjr hilt
    rw [reduceEntry]
    by_cases hkeq : k = j
    · refine ⟨(x, w), by rw [if_pos hkeq]; rfl, e1, e2, ?_, ?_, e5⟩
      · intro K hK hgap t
        have hmem : ∀ t, t < j → (t ∈ (pre ++ [(k, i)]).map Prod.fst ↔ t ∈ pre.map Prod.fst) := by
          intro t ht
          simp only [List.map_append, List.map_cons, List.map_nil, List.mem_append, List.mem_singleton]
          constructor
          · rintro (h | h)
            · exact h
            · omega
          · exact Or.inl
        rw [e3 K hK (fun t h1 h2 => by rw [hgap t h1 h2, hmem t h1]) t]
        by_cases htj : t < j
        · simp only [hmem t htj]
        · simp [htj]
      · intro p hp hpj
        rcases List.mem_append.1 hp with hp | hp
        · exact e4 p hp hpj
        · simp at hp
          subst hp
          simp at hpj
          omega
    · rw [if_neg hkeq]
      have hklt : k < j := lt_of_le_of_ne hkj hkeq
      have hkn : k < a.ncols := by omega
      have hkh : k < s.hStructure.ncols := by rw [sh.hCols]; exact hkn
      have hpre : ∀ t ∈ pre.map Prod.fst, t < k := by
        intro t ht
        rw [hsplit] at hsort
        exact (List.pairwise_append.1 hsort).2.2 t ht k (by simp)
      have hpost : ∀ t ∈ post.map Prod.fst, k < t := by
        intro t ht
        rw [hsplit] at hsort
        exact (List.pairwise_cons.1 (List.pairwise_append.1 hsort).2.1).1 t ht
      have hmemT : ∀ t, t ∈ columnRows s.rStructure j ↔ t ∈ pre.map Prod.fst ∨ t = k ∨ t ∈ post.map Prod.fst := by
        intro t
        rw [hsplit]
        simp only [List.mem_append, List.mem_cons]
      have hxk := e3 k hkj (by
        intro t _ ht
        constructor
        · intro h1
          rcases (hmemT t).1 ht with h | h | h
          · exact h
          · omega
          · have := hpost t h; omega
        · exact hpre t)
      have hbeta : idx hBetas k = .ok (hBeta hBetas k) := idx_of (getElem?_of_getD (by omega))
      obtain ⟨x', f1, f2, f3⟩ := applyHouseholder_spec (x := x) (β := hBeta hBetas k) (rows := columnRows s.hStructure k)
        (values := colVals s.hStructure hValues k) (colVals_length sh.hWf hhv hkh) (fun r hr => by
          rw [e1, ← sh.hRows]; exact sh.hWf.columnRows_bound hr)
      have hvpre : ∀ t ∈ pre.map Prod.fst, hVec s.hStructure hValues k t = 0 := by
        intro t ht
        apply hv
        intro hmem
        have h1 := sh.hGe k hkn t hmem
        have h2 := hpre t ht
        omega
      have hx' : ∀ t, x'.getD t 0 = if t < j ∧ t ∈ pre.map Prod.fst then 0 else y (k + 1) t := by
        intro t
        have hsum : ∑ u ∈ Finset.range a.nrows, hVec s.hStructure hValues k u * x.getD u 0 =
            ∑ u ∈ Finset.range a.nrows, hVec s.hStructure hValues k u * y k u := by
          refine Finset.sum_congr rfl (fun u _ => ?_)
          rw [hxk u]
          split
          · rename_i hu
            rw [hvpre u hu.2]; ring
          · rfl
        rw [f3, reflect, e1]
        show x.getD t 0 - hVec s.hStructure hValues k t * ((∑ u ∈ Finset.range a.nrows, hVec s.hStructure hValues k u * x.getD u 0) * hBeta hBetas k) = _
        rw [hsum, hxk t]
        split
        · rename_i ht
          rw [hvpre t ht.2]; ring
        · rw [hy (k + 1), reflectAll, ← hy k, reflect]
      have hkpre : k ∉ pre.map Prod.fst := fun hmem => by have := hpre k hmem; omega
      have hkx : k < x'.length := by rw [f2, e1]; have := sh.le; omega
      have hyk : x'.getD k 0 = y j k := by
        rw [hx', if_neg (by simp only [not_and]; exact fun _ => hkpre), hy, hy]
        symm
        apply reflectAll_mono j (by omega)
        intro i h1 h2
        apply hv
        intro hmem
        have := sh.hGe i (by omega) k hmem
        omega
      have hstart : idx s.rStructure.columnPointers j = .ok (s.rStructure.columnPointers.getD j 0) := idx_of (sh.rWf.pointer (by omega))
      rw [householderColumn_eq sh.hWf hhv hkh, ok_bind, hbeta, ok_bind, sh.hWf.indexColumn hkh, ok_bind]
      have hpw : s.rStructure.columnPointers.getD j 0 + i < w.length := by omega
      rw [f1, ok_bind, hstart, ok_bind, idx_of (getElem?_of_getD hkx), ok_bind, setIdx_of _ hpw, ok_bind, setIdx_of _ hkx, ok_bind]
      refine ⟨_, rfl, ?_, ?_, ?_, ?_, ?_⟩
      · simp only [List.length_set]
        rw [f2, e1]
      · simp only [List.length_set]
        exact e2
      · intro K hK hgap t
        have hkK : k < K := by
          rw [hgap k hklt hkmem]
          simp
        have hyK : y K = y (k + 1) := by
          rw [hy, hy]
          apply reflectAll_gap sh hv hj hx K hkK hK
          intro i h1 h2 hmem
          have h3 := (hgap i (by omega) hmem).1 h2
          simp only [List.map_append, List.map_cons, List.map_nil, List.mem_append, List.mem_singleton] at h3
          rcases h3 with h3 | h3
          · have := hpre i h3; omega
          · omega
        simp only
        rw [getD_set _ _ hkx, hx', hyK]
        by_cases htk : t = k
        · subst htk
          rw [if_pos rfl, if_pos (by simp [hklt])]
        · rw [if_neg htk]
          have hm : t ∈ List.map Prod.fst (pre ++ [(k, i)]) ↔ t ∈ List.map Prod.fst pre := by
            rw [List.map_append, List.mem_append, List.map_cons, List.map_nil, List.mem_singleton]
            exact ⟨fun h => h.resolve_right htk, Or.inl⟩
          simp only [hm]
      · intro p hp hpj
        simp only
        rcases List.mem_append.1 hp with hp | hp
        · have hne : s.rStructure.columnPointers.getD j 0 + i ≠ s.rStructure.columnPointers.getD j 0 + p.2 := by
            intro heq
            have hp2 : p.2 < pre.length := by
              obtain ⟨q, hq⟩ := List.mem_iff_getElem?.1 hp
              have hq' := (List.getElem?_eq_some_iff.1 hq).1
              have h7 : (columnRows s.rStructure j).zipIdx[q]? = some p := by rw [hl, List.getElem?_append_left hq', hq]
              rw [List.getElem?_zipIdx] at h7
              cases h8 : (columnRows s.rStructure j)[q]? with
              | none => rw [h8] at h7; simp at h7
              | some z =>
                rw [h8] at h7
                simp at h7
                rw [← h7]
                exact hq'
            omega
          rw [List.getElem?_set_ne hne]
          exact e4 p hp hpj
        · simp only [List.mem_singleton] at hp
          subst hp
          rw [List.getElem?_set_self (by omega), hyk]
      · intro p hp
        simp only
        rw [List.getElem?_set_ne (by omega)]
        exact e5 p hp)
  simp only at h2 h3 h4 h5 h6
  refine ⟨x₁, rv₁, h1, h2, h3, ?_, ?_, h6⟩
  · have hfst : (columnRows s.rStructure j).zipIdx.map Prod.fst = columnRows s.rStructure j := by simp
    intro t
    rw [h4 j le_rfl (fun t h7 h8 => by rw [hfst]; simp [h7, h8]) t, hfst]
  · intro i k hik hk
    refine h5 (k, i) ?_ hk
    rw [List.mem_iff_getElem?]
    exact ⟨i, by rw [List.getElem?_zipIdx, hik]; simp⟩

/-- The loop that gathers the new Householder vector. -/
theorem gather_spec {T : Type} [Zero T] {hv x₁ : List T} (hhv : hv.length = s.hStructure.rowIndices.length) (hx₁ : x₁.length = a.nrows) :
    ∃ x₂ hv₁, (columnRows s.hStructure j).zipIdx.foldlM (gatherEntry s j) (x₁, hv) = .ok (x₂, hv₁) ∧ x₂.length = a.nrows ∧
      hv₁.length = hv.length ∧
      (∀ i k : Nat, (columnRows s.hStructure j)[i]? = some k → hv₁[s.hStructure.columnPointers.getD j 0 + i]? = some (x₁.getD k 0)) ∧
      ∀ p, p < s.hStructure.columnPointers.getD j 0 ∨ s.hStructure.columnPointers.getD (j + 1) 0 ≤ p → hv₁[p]? = hv[p]? := by
  have hjh : j < s.hStructure.ncols := by rw [sh.hCols]; exact hj
  have hnd := columnRows_nodup sh.hWf hjh
  obtain ⟨⟨x₂, hv₁⟩, h1, h2, h3, h4, h5, h6⟩ := foldlM_prefix (fun (pre : List (Nat × Nat)) (st : List T × List T) =>
      st.1.length = a.nrows ∧ st.2.length = hv.length ∧ (∀ t, t ∉ pre.map Prod.fst → st.1.getD t 0 = x₁.getD t 0) ∧
      (∀ p, p < pre.length → ∀ k : Nat, (columnRows s.hStructure j)[p]? = some k →
        st.2[s.hStructure.columnPointers.getD j 0 + p]? = some (x₁.getD k 0)) ∧
      (∀ p, p < s.hStructure.columnPointers.getD j 0 ∨ s.hStructure.columnPointers.getD (j + 1) 0 ≤ p → st.2[p]? = hv[p]?))
    (gatherEntry s j) (columnRows s.hStructure j).zipIdx (x₁, hv)
    ⟨hx₁, rfl, fun _ _ => rfl, by simp, fun _ _ => rfl⟩ (by
    rintro pre ⟨k, i⟩ post ⟨x, w⟩ hl ⟨e1, e2, e3, e4, e5⟩
    simp only at e1 e2 e3 e4 e5
    obtain ⟨hi, hsplit, hki⟩ := zipIdx_split hl
    have hilt := (List.getElem?_eq_some_iff.1 hki).1
    have hpos := columnRows_lt sh.hWf hjh hilt
    have hkm : k < a.nrows := by rw [← sh.hRows]; exact sh.hWf.columnRows_bound (List.mem_of_getElem? hki)
    have hkpre : k ∉ pre.map Prod.fst := by
      rw [hsplit] at hnd
      intro hmem
      exact (List.nodup_append.1 hnd).2.2 k hmem k (by simp) rfl
    have hkx : k < x.length := by omega
    have hpw : s.hStructure.columnPointers.getD j 0 + i < w.length := by omega
    rw [gatherEntry, idx_of (getElem?_of_getD hkx), ok_bind, idx_of (sh.hWf.pointer (by omega)), ok_bind, setIdx_of _ hpw, ok_bind,
      setIdx_of _ hkx, ok_bind]
    refine ⟨_, rfl, by simpa using e1, by simpa using e2, ?_, ?_, ?_⟩
    · intro t ht
      simp only [List.map_append, List.map_cons, List.map_nil, List.mem_append, List.mem_singleton, not_or] at ht
      simp only
      rw [getD_set _ _ (by omega), if_neg ht.2, e3 t ht.1]
    · intro p hp k' hk'
      simp only [List.length_append, List.length_singleton] at hp
      simp only
      by_cases hpi : p = i
      · subst hpi
        rw [hki] at hk'
        obtain rfl := Option.some.inj hk'
        rw [List.getElem?_set_self (by omega), e3 k hkpre]
      · rw [List.getElem?_set_ne (by omega)]
        exact e4 p (by omega) k' hk'
    · intro p hp
      simp only
      rw [List.getElem?_set_ne (by omega)]
      exact e5 p hp)
  simp only at h2 h3 h4 h5 h6
  refine ⟨x₂, hv₁, h1, h2, h3, ?_, h6⟩
  intro i k hik
  exact h5 i (by simpa using (List.getElem?_eq_some_iff.1 hik).1) k hik

end

end Fiksi
