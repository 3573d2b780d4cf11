import Verif.Proofs.FactorColumns
/-!
# What `CholeskyStructure::build` returns
-/
namespace Fiksi

open Spec

theorem insertionSort_lt {l : List Nat} (h : l.Nodup) : (l.insertionSort (· ≤ ·)).Pairwise (· < ·) := by
  have h1 := List.pairwise_insertionSort (· ≤ ·) l
  have h2 : (l.insertionSort (· ≤ ·)).Nodup := (List.perm_insertionSort (· ≤ ·) l).nodup_iff.2 h
  exact (List.pairwise_and_iff.2 ⟨h1, h2⟩).imp (fun h => lt_of_le_of_ne h.1 h.2)

/-- What is true when the columns before `j` are done. -/
structure FactorInv (a : SparseStructure) (parents rp : List (Option Nat)) (colCounts : List Nat) (j : Nat) (cols : List (List Nat))
    (st : FactorState) : Prop where
  hlen : st.hAll.length = a.ncols
  done : ∀ k, k < j → ∃ l, st.hAll[k]? = some l ∧ l.Nodup ∧ ∀ x, x ∈ l ↔ HSet a parents rp k x
  todo : ∀ k, j ≤ k → k < a.ncols → st.hAll[k]? = some []
  mlen : st.marker.length = a.nrows + a.ncols
  mark : ∀ x ∈ st.marker, x ≤ j
  count : cols.length = j
  rlen : st.rowIndices.length = colCounts.sum
  start : st.start = cols.flatten.length
  rows : st.rowIndices.take st.start = cols.flatten
  lens : cols.map List.length = colCounts.take j
  sorted : ∀ l ∈ cols, l.Pairwise (· < ·)
  mem : ∀ (c : Nat) (l : List Nat), cols[c]? = some l → ∀ x, x ∈ l ↔ InR a parents x c
  last : ∀ (c : Nat) (l : List Nat), cols[c]? = some l → l.getLast? = some c

theorem Setting.factorColumn_spec {a : SparseStructure} {parents : List (Option Nat)} {post : List Nat} (s : Setting a parents post)
    {fc rp : List (Option Nat)} {total : Nat} (hfc : FirstColumns a fc) (hrp : RowAssignment a parents rp total) {colCounts : List Nat}
    (hcl : colCounts.length = a.ncols) (hcc : ∀ u, u < a.ncols → colCounts[u]? = some (fillCount a parents u)) {j : Nat} (hj : j < a.ncols)
    {cols : List (List Nat)} {st : FactorState} (h : FactorInv a parents rp colCounts j cols st) :
    ∃ st', factorColumn a parents fc rp colCounts st j = .ok st' ∧ ∃ cols', FactorInv a parents rp colCounts (j + 1) cols' st' := by
  have t := s.tree
  rw [factorColumn, setIdx_of _ (by rw [h.mlen]; omega), ok_bind, idx_of (h.todo j le_rfl hj), ok_bind, s.wf.indexColumn hj, ok_bind]
  have hmark : MarkOk (a.nrows + a.ncols) j (fun x => x ∈ ([] : List Nat) ∨ x ∈ ([] ++ [j] : List Nat)) (st.marker.set j (j + 1)) := by
    have hm : MarkOk (a.nrows + a.ncols) j (fun _ => False) st.marker := by
      refine ⟨h.mlen, ?_⟩
      intro x v hx
      have := h.mark v (List.mem_of_getElem? hx)
      exact ⟨by omega, by omega, False.elim⟩
    refine (hm.set (x := j) (by omega)).congr ?_
    intro x
    simp
  obtain ⟨cs, e1, e2⟩ := foldlM_prefix (fun done st => ColumnInv a parents rp j done st) (columnEntry parents fc rp j) (columnRows a j)
    ⟨[], st.marker.set j (j + 1), [] ++ [j]⟩ ⟨by simp, by simp, by simp, by simp, hmark⟩ (by
    intro done i rest st' hl hst
    exact s.columnEntry_spec hfc hrp hst ((s.wf.mem_columnRows hj).1 (by rw [hl]; simp)))
  rw [e1, ok_bind]
  have hstack : ∀ x, x ∈ cs.stack ↔ ∃ f, Nbr a f j ∧ Desc parents f x ∧ Below parents x j := by
    intro x
    rw [e2.stack]
    constructor
    · rintro ⟨i, h1, f, h2, h3, h4⟩
      exact ⟨f, ⟨i, h2, (s.wf.mem_columnRows hj).1 h1, (t.below_bound (h3.below h4)).2.2⟩, h3, h4⟩
    · rintro ⟨f, ⟨i, h1, h2, h3⟩, h4, h5⟩
      exact ⟨i, (s.wf.mem_columnRows hj).2 h2, f, h1, h4, h5⟩
  have hcard : cs.stack.length + 1 = fillCount a parents j := by
    rw [fillCount, ← List.toFinset_card_of_nodup e2.nodup, Nat.add_comm]
    congr 2
    ext x
    rw [List.mem_toFinset, hstack, mem_seenTree]
  have hsum : st.start + (cs.stack.length + 1) ≤ colCounts.sum := by
    have h1 : (colCounts.take (j + 1)).sum ≤ colCounts.sum := by
      conv_rhs => rw [← List.take_append_drop (j + 1) colCounts, List.sum_append]
      omega
    rw [List.take_succ, hcc j hj, List.sum_append, ← h.lens] at h1
    simp only [Option.toList_some, List.sum_singleton] at h1
    rw [← List.length_flatten, ← h.start] at h1
    omega
  obtain ⟨ri, hRows, marker, g1, g2, g3, g4, g5, g6, g7⟩ := s.popColumns_spec hrp hj (hAll := st.hAll) (fun k hk => by
      obtain ⟨l, q1, -, q2⟩ := h.done k hk
      exact ⟨l, q1, q2⟩) e2 (rowIndices := st.rowIndices) (start := st.start) (by rw [h.rlen]; omega)
  rw [g1, ok_bind]
  simp only
  have hslice : (ri.drop st.start).take (st.start + cs.stack.length - st.start) = cs.stack := by
    rw [← List.drop_take, g3, h.rows, List.drop_append, h.start, List.drop_length]
    simp
  have hrilen : ri.length = colCounts.sum := by rw [g2, h.rlen]
  have hpre : ri.take st.start = cols.flatten := by
    have : (ri.take (st.start + cs.stack.length)).take st.start = cols.flatten := by
      rw [g3, h.rows, List.take_append, h.start, List.take_length]
      simp
    rw [List.take_take] at this
    simpa using this
  rw [sortRange, sliceIdx_of (by omega) (by omega), ok_bind, hslice, pure_eq_ok, ok_bind, hpre]
  have hlen2 : (cols.flatten ++ cs.stack.insertionSort (· ≤ ·) ++ ri.drop (st.start + cs.stack.length)).length = colCounts.sum := by
    simp only [List.length_append, List.length_insertionSort, List.length_drop, hrilen]
    rw [h.start] at *
    omega
  rw [setIdx_of _ (by rw [hlen2]; omega), ok_bind, idx_of (hcc j hj), ok_bind, setIdx_of _ (by rw [h.hlen]; exact hj), ok_bind]
  refine ⟨_, rfl, cols ++ [cs.stack.insertionSort (· ≤ ·) ++ [j]], ?_⟩
  have hnewlen : (cs.stack.insertionSort (· ≤ ·) ++ [j]).length = fillCount a parents j := by
    simp [hcard]
  have hsorted : (cs.stack.insertionSort (· ≤ ·) ++ [j]).Pairwise (· < ·) := by
    rw [List.pairwise_append]
    refine ⟨insertionSort_lt e2.nodup, by simp, ?_⟩
    intro x hx y hy
    rw [List.mem_singleton] at hy
    subst hy
    rw [List.mem_insertionSort, hstack] at hx
    obtain ⟨_, _, _, hb⟩ := hx
    exact (t.below_bound hb).2.2
  have hget : ∀ (c : Nat) (l : List Nat), (cols ++ [cs.stack.insertionSort (· ≤ ·) ++ [j]])[c]? = some l →
      cols[c]? = some l ∨ (c = j ∧ l = cs.stack.insertionSort (· ≤ ·) ++ [j]) := by
    intro c l hl
    rcases Nat.lt_or_ge c cols.length with hc | hc
    · rw [List.getElem?_append_left hc] at hl
      exact Or.inl hl
    · rw [List.getElem?_append_right hc, List.getElem?_singleton] at hl
      split at hl
      · simp only [Option.some.injEq] at hl
        exact Or.inr ⟨by have := h.count; omega, hl.symm⟩
      · simp at hl
  refine ⟨by simp [h.hlen], ?_, ?_, g6, g7, by simp [h.count], by simp only [List.length_set]; exact hlen2, ?_, ?_, ?_, ?_, ?_, ?_⟩
  · intro k hk
    by_cases hkj : k = j
    · subst hkj
      exact ⟨hRows, List.getElem?_set_self (by rw [h.hlen]; exact hj), g4, g5⟩
    · obtain ⟨l, q1, q2⟩ := h.done k (by omega)
      exact ⟨l, by simp only; rw [List.getElem?_set_ne (Ne.symm hkj)]; exact q1, q2⟩
  · intro k hk hkn
    simp only
    rw [List.getElem?_set_ne (by omega)]
    exact h.todo k (by omega) hkn
  · simp only [List.flatten_append, List.length_append, List.flatten_singleton]
    rw [← List.length_append, hnewlen, h.start]
  · simp only
    have h1 : st.start + fillCount a parents j = (st.start + cs.stack.length) + 1 := by omega
    have h2 : (cols.flatten ++ cs.stack.insertionSort (· ≤ ·)).length = st.start + cs.stack.length := by
      simp [h.start]
    have hlt : st.start + cs.stack.length < (cols.flatten ++ cs.stack.insertionSort (· ≤ ·) ++ ri.drop (st.start + cs.stack.length)).length := by
      rw [hlen2]; omega
    rw [h1, List.take_succ, List.getElem?_set_self hlt, List.take_set_of_le le_rfl, ← h2, List.take_left]
    simp
  · rw [List.map_append, h.lens, List.take_succ, hcc j hj]
    simp [← hnewlen]
  · intro l hl
    rcases List.mem_append.1 hl with hl | hl
    · exact h.sorted l hl
    · rw [List.mem_singleton] at hl
      rw [hl]
      exact hsorted
  · intro c l hl x
    rcases hget c l hl with hl | ⟨rfl, rfl⟩
    · exact h.mem c l hl x
    · rw [List.mem_append, List.mem_insertionSort, hstack, List.mem_singleton, InR]
      exact or_comm
  · intro c l hl
    rcases hget c l hl with hl | ⟨rfl, rfl⟩
    · exact h.last c l hl
    · simp

/-- The columns of the factor and of the Householder vectors. -/
structure FactorColumns (a : SparseStructure) (parents rp : List (Option Nat)) (colCounts : List Nat) (rcols hcols : List (List Nat)) : Prop where
  rlen : rcols.length = a.ncols
  hlen : hcols.length = a.ncols
  rcounts : rcols.map List.length = colCounts
  rsorted : ∀ l ∈ rcols, l.Pairwise (· < ·)
  hsorted : ∀ l ∈ hcols, l.Pairwise (· < ·)
  rmem : ∀ (c : Nat) (l : List Nat), rcols[c]? = some l → ∀ x, x ∈ l ↔ InR a parents x c
  rlast : ∀ (c : Nat) (l : List Nat), rcols[c]? = some l → l.getLast? = some c
  hmem : ∀ (c : Nat) (l : List Nat), hcols[c]? = some l → ∀ x, x ∈ l ↔ HSet a parents rp c x

theorem Setting.factorColumns_spec {a : SparseStructure} {parents : List (Option Nat)} {post : List Nat} (s : Setting a parents post)
    {fc rp : List (Option Nat)} {total : Nat} (hfc : FirstColumns a fc) (hrp : RowAssignment a parents rp total) {colCounts : List Nat}
    (hcl : colCounts.length = a.ncols) (hcc : ∀ u, u < a.ncols → colCounts[u]? = some (fillCount a parents u)) :
    ∃ (st : FactorState) (rcols : List (List Nat)), (List.range a.ncols).foldlM (factorColumn a parents fc rp colCounts)
        ⟨List.replicate a.ncols [], List.replicate colCounts.sum 0, List.replicate (a.nrows + a.ncols) 0, 0⟩ = .ok st ∧
      st.rowIndices = rcols.flatten ∧ FactorColumns a parents rp colCounts rcols (st.hAll.map (fun l => l.insertionSort (· ≤ ·))) := by
  obtain ⟨st, e1, cols, e2⟩ := foldlM_range (fun j st => ∃ cols, FactorInv a parents rp colCounts j cols st) (factorColumn a parents fc rp colCounts)
    a.ncols ⟨List.replicate a.ncols [], List.replicate colCounts.sum 0, List.replicate (a.nrows + a.ncols) 0, 0⟩
    ⟨[], by simp, by simp, by
      intro k _ hk
      simp [List.getElem?_replicate, hk], by simp, by
      intro x hx
      have := List.eq_of_mem_replicate hx
      omega, rfl, by simp, rfl, by simp, by simp, by simp, by simp, by simp⟩ (by
    rintro j hj st ⟨cols, h⟩
    exact s.factorColumn_spec hfc hrp hcl hcc hj h)
  have hlens : cols.map List.length = colCounts := by rw [e2.lens, List.take_of_length_le (by omega)]
  refine ⟨st, cols, e1, ?_, e2.count, by simp [e2.hlen], hlens, e2.sorted, ?_, e2.mem, e2.last, ?_⟩
  · have h1 := e2.rows
    rw [List.take_of_length_le] at h1
    · exact h1
    · rw [e2.rlen, e2.start, List.length_flatten, hlens]
  · intro l hl
    obtain ⟨l', h1, rfl⟩ := List.mem_map.1 hl
    obtain ⟨k, hk⟩ := List.mem_iff_getElem?.1 h1
    obtain ⟨l'', q1, q2, -⟩ := e2.done k (by rw [← e2.hlen]; exact (List.getElem?_eq_some_iff.1 hk).1)
    rw [hk] at q1
    obtain rfl := Option.some.inj q1
    exact insertionSort_lt q2
  · intro c l hl x
    rw [List.getElem?_map, Option.map_eq_some_iff] at hl
    obtain ⟨l', h1, rfl⟩ := hl
    obtain ⟨l'', q1, -, q3⟩ := e2.done c (by rw [← e2.hlen]; exact (List.getElem?_eq_some_iff.1 h1).1)
    rw [h1] at q1
    obtain rfl := Option.some.inj q1
    rw [List.mem_insertionSort]
    exact q3 x

/-! ## The counts that are not used -/

theorem Tree.depth_le {parents : List (Option Nat)} {n : Nat} {post : List Nat} (t : Tree parents n post) {f r df dr : Nat} (h : Desc parents f r)
    (hf : DepthOf parents f df) (hr : DepthOf parents r dr) : dr ≤ df := by
  rcases h with rfl | h
  · exact le_of_eq (DepthOf_unique hr hf)
  · have := pathTo_card t.isForest h hf hr
    omega

theorem Setting.householderCounts_ok {a : SparseStructure} {parents : List (Option Nat)} {post : List Nat} (s : Setting a parents post)
    {fc rp : List (Option Nat)} {total : Nat} (hfc : FirstColumns a fc) (hrp : RowAssignment a parents rp total) {levels : List Nat}
    (hlev : ∀ v, v < a.ncols → ∃ d, levels[v]? = some d ∧ DepthOf parents v d) :
    ∃ r, householderCounts a.nrows a.ncols parents post levels fc rp = .ok r := by
  have t := s.tree
  obtain ⟨lists, h1, h2, h3⟩ := foldlM_ok (fun (lists : List (List Nat)) => lists.length = a.ncols ∧ ∀ l ∈ lists, ∀ i ∈ l, i < a.nrows)
    (noteFirstInRow fc) (List.range a.nrows) (List.replicate a.ncols []) ⟨by simp, by
      intro l hl i hi
      rw [List.eq_of_mem_replicate hl] at hi
      simp at hi⟩ (by
    rintro lists i hi ⟨q1, q2⟩
    have hi := List.mem_range.1 hi
    obtain ⟨o, ho1, ho2⟩ := hfc.2 i hi
    rw [noteFirstInRow, idx_of ho1, ok_bind]
    cases o with
    | none => exact ⟨lists, rfl, q1, q2⟩
    | some f =>
      have hf := ((ho2 f).1 rfl).1.lt s.wf
      have hfl : f < lists.length := by rw [q1]; exact hf.2
      simp only
      rw [idx_of (List.getElem?_eq_getElem hfl), ok_bind, setIdx_of _ hfl]
      refine ⟨_, rfl, by simp [q1], ?_⟩
      intro l hl x hx
      rcases List.mem_or_eq_of_mem_set hl with hl | rfl
      · exact q2 l hl x hx
      · rcases List.mem_append.1 hx with hx | hx
        · exact q2 _ (List.getElem_mem hfl) x hx
        · rw [List.mem_singleton] at hx
          omega)
  obtain ⟨roots, r1, r2, r3⟩ := foldlM_prefix (fun (pre : List Nat) (roots : List Nat) => roots.length = a.ncols ∧
      ∀ v ∈ pre, ∃ r, roots[v]? = some r ∧ r < a.ncols ∧ Desc parents v r) (rootStep parents) post.reverse (List.replicate a.ncols 0)
    ⟨by simp, by simp⟩ (by
    rintro pre j rest roots hl ⟨q1, q2⟩
    have hl' : post = rest.reverse ++ j :: pre.reverse := by
      have := congrArg List.reverse hl
      simpa using this
    obtain ⟨hjp, hj, hplace⟩ := t.prefix_place hl'
    obtain ⟨op, hop⟩ : ∃ op, parents[j]? = some op := ⟨_, List.getElem?_eq_getElem (by rw [t.len]; exact hj)⟩
    have hjpre : j ∉ pre := by
      have hnd := t.nodup
      rw [hl', List.nodup_append] at hnd
      have := hnd.2.1
      rw [List.nodup_cons] at this
      simpa using this.1
    have hset : ∀ r, r < a.ncols → Desc parents j r → ∃ roots', setIdx roots j r = .ok roots' ∧ roots'.length = a.ncols ∧
        ∀ v ∈ pre ++ [j], ∃ r, roots'[v]? = some r ∧ r < a.ncols ∧ Desc parents v r := by
      intro r hr hd
      refine ⟨roots.set j r, setIdx_of _ (by rw [q1]; exact hj), by simp [q1], ?_⟩
      intro v hv
      by_cases hvj : j = v
      · subst hvj
        exact ⟨r, List.getElem?_set_self (by rw [q1]; exact hj), hr, hd⟩
      · rw [List.getElem?_set_ne hvj]
        rcases List.mem_append.1 hv with hv | hv
        · exact q2 v hv
        · rw [List.mem_singleton] at hv
          exact absurd hv.symm hvj
    rw [rootStep, idx_of hop, ok_bind]
    cases op with
    | none => exact hset j hj (.refl j)
    | some p =>
      have hpn := t.bound j p hop
      have hplt := t.below_place (Below.parent hop)
      have hppre : p ∈ pre := by
        have hpm : p ∈ post := t.mem.2 hpn
        rw [hl', List.mem_append, List.mem_cons] at hpm
        rcases hpm with h4 | rfl | h4
        · have := (hplace p hpn).1 h4
          omega
        · omega
        · simpa using h4
      obtain ⟨r, w1, w2, w3⟩ := q2 p hppre
      simp only
      rw [idx_of w1, ok_bind]
      exact hset r w2 ((Below.parent hop).desc.trans w3))
  have hroot : ∀ v, v < a.ncols → ∃ r, roots[v]? = some r ∧ r < a.ncols ∧ Desc parents v r :=
    fun v hv => r3 v (by rw [List.mem_reverse]; exact t.mem.2 hv)
  obtain ⟨⟨counts, rowRoots⟩, w1, w2, w3, w4⟩ := foldlM_ok (fun (r : List Nat × List Nat) => r.1.length = a.nrows ∧ r.2.length = a.nrows ∧
      ∀ x ∈ r.2, x = 0 ∨ x < a.ncols) (rowRootStep a.nrows rp fc levels roots) (List.range a.nrows)
    (List.replicate a.nrows 0, List.replicate a.nrows 0) ⟨by simp, by simp, fun x hx => Or.inl (List.eq_of_mem_replicate hx)⟩ (by
    rintro ⟨counts, rowRoots⟩ i hi ⟨q1, q2, q3⟩
    simp only at q1 q2 q3
    have hi := List.mem_range.1 hi
    obtain ⟨p, hp, -⟩ := hrp.real i hi
    rw [rowRootStep, idx_of hp, ok_bind]
    simp only
    by_cases hmp : a.nrows ≤ p
    · rw [if_pos hmp]
      exact ⟨_, rfl, q1, q2, q3⟩
    · rw [if_neg hmp]
      obtain ⟨o, ho1, ho2⟩ := hfc.2 i hi
      rw [idx_of ho1, ok_bind]
      cases o with
      | none => exact ⟨_, rfl, q1, q2, q3⟩
      | some f =>
        have hf := (ho2 f).1 rfl
        have hfn := (hf.1.lt s.wf).2
        obtain ⟨r, v1, v2, v3⟩ := hroot f hfn
        have hdesc : Desc parents f (if p < r then p else r) ∧ (if p < r then p else r) < a.ncols := by
          split
          · next hlt =>
            obtain ⟨f', u1, u2⟩ := hrp.anc i p hi hp (by omega)
            rw [FirstCol_unique u1 hf] at u2
            exact ⟨u2, by omega⟩
          · exact ⟨v3, v2⟩
        obtain ⟨df, hdf1, hdf2⟩ := hlev f hfn
        obtain ⟨dr, hdr1, hdr2⟩ := hlev _ hdesc.2
        have hle := t.depth_le hdesc.1 hdf2 hdr2
        simp only
        rw [idx_of v1, ok_bind, setIdx_of _ (by rw [q2]; exact hi), ok_bind, idx_of hdf1, ok_bind,
          idx_of (List.getElem?_set_self (by rw [q2]; exact hi)), ok_bind, idx_of hdr1, ok_bind, checkedSub, if_pos (by omega), ok_bind,
          setIdx_of _ (by rw [q1]; exact hi), ok_bind]
        refine ⟨_, rfl, by simp [q1], by simp [q2], ?_⟩
        intro x hx
        rcases List.mem_or_eq_of_mem_set hx with hx | rfl
        · exact q3 x hx
        · exact Or.inr hdesc.2)
  simp only at w2 w3 w4
  obtain ⟨weights, k1, k2⟩ := foldlM_ok (fun (w : List Int) => w.length = a.ncols) (fun (weights : List Int) j => do
      let rows ← idx lists j
      rows.foldlM (householderWeight parents rowRoots j) weights) (List.range a.ncols) (List.replicate a.ncols 0) (by simp) (by
    intro w j hj hw
    have hj := List.mem_range.1 hj
    have hjl : j < lists.length := by rw [h2]; exact hj
    rw [idx_of (List.getElem?_eq_getElem hjl), ok_bind]
    refine foldlM_ok (fun (w : List Int) => w.length = a.ncols) _ _ w hw ?_
    intro w i hi hw
    have hi := h3 _ (List.getElem_mem hjl) i hi
    obtain ⟨w', u1, u2⟩ := addAt_ok (l := w) (i := j) 1 (by rw [hw]; exact hj)
    have hrr : rowRoots[i]? = some (rowRoots[i]'(by rw [w3]; exact hi)) := List.getElem?_eq_getElem _
    have hrn : rowRoots[i]'(by rw [w3]; exact hi) < a.ncols := by
      rcases w4 _ (List.getElem_mem (by rw [w3]; exact hi)) with h4 | h4
      · omega
      · exact h4
    have hpn : parents[rowRoots[i]'(by rw [w3]; exact hi)]? = some (parents[rowRoots[i]'(by rw [w3]; exact hi)]'(by rw [t.len]; exact hrn)) :=
      List.getElem?_eq_getElem _
    rw [householderWeight, u1, ok_bind, idx_of hrr, ok_bind, idx_of hpn, ok_bind]
    cases hpp : parents[rowRoots[i]'(by rw [w3]; exact hi)]'(by rw [t.len]; exact hrn) with
    | none => exact ⟨w', rfl, by rw [u2, hw]⟩
    | some p =>
      rw [hpp] at hpn
      obtain ⟨w'', u3, u4⟩ := addAt_ok (l := w') (i := p) (-1) (by rw [u2, hw]; exact t.bound _ p hpn)
      exact ⟨w'', u3, by rw [u4, u2, hw]⟩)
  refine ⟨(counts, weights), ?_⟩
  rw [householderCounts, h1, ok_bind, r1, ok_bind, w1, ok_bind]
  simp only
  rw [k1, ok_bind]
  rfl

/-- What `CholeskyStructure::build` returns. -/
theorem Setting.structure_spec {a : SparseStructure} {parents : List (Option Nat)} {post : List Nat} (s : Setting a parents post) :
    ∃ counts, CholeskyCounts.build a parents post = .ok counts ∧ ∃ cs, CholeskyStructure.build a parents post counts = .ok cs ∧
      ∃ total rcols hcols, RowAssignment a parents cs.rowPermutation total ∧
        FactorColumns a parents cs.rowPermutation counts.colCounts rcols hcols ∧
        cs.lStructure = ofColumns a.ncols rcols ∧ cs.hStructure = ofColumns a.nrows hcols := by
  obtain ⟨counts, h1, h2, h3, h4, -, -, h5⟩ := s.counts_spec
  obtain ⟨rp, total, h6, h7⟩ := s.assignRows_spec h2
  obtain ⟨st, rcols, h8, h9, h10⟩ := s.factorColumns_spec h2 h7 h3 h4
  obtain ⟨r, h11⟩ := s.householderCounts_ok h2 h7 h5
  refine ⟨counts, h1, ⟨ofColumns a.ncols rcols, rp, ofColumns a.nrows (st.hAll.map (fun l => l.insertionSort (· ≤ ·)))⟩, ?_,
    total, rcols, _, h7, h10, rfl, rfl⟩
  rw [CholeskyStructure.build]
  simp only
  rw [h6, ok_bind]
  simp only
  rw [h8, ok_bind, h11, ok_bind, pure_eq_ok, h9, ofColumns, ofColumns, h10.rlen, h10.hlen, h10.rcounts]

end Fiksi
