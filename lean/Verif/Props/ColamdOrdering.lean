import Verif.Proofs.AmdForest
import Verif.Props.OrderChildren
import Verif.Props.Symamd
import Verif.Props.ColamdErrors
/-!
# C55, C56: `colamd` and `symamd` return permutations
-/
namespace Fiksi
open Spec

variable {F : Type} [Mul F] [Zero F] [FloatOps F]

theorem Spec.ColumnForm.congr {a a' p : Int → Int} {m n : Int} (h : ColumnForm a p m n) (he : ∀ i, 0 ≤ i → i < p n → a' i = a i) : ColumnForm a' p m n :=
  ⟨h.rows, h.cols, h.first, h.mono, fun i i0 i1 => by rw [he i i0 i1]; exact h.bound i i0 i1⟩

theorem Spec.SortedColumns.congr {a a' p : Int → Int} {m n : Int} (h : ColumnForm a p m n) (hs : SortedColumns a p n) (he : ∀ i, 0 ≤ i → i < p n → a' i = a i) :
    SortedColumns a' p n := fun c c0 cn i j h1 h2 h3 => by
  have e1 := (h.entry c0 cn h1 (by omega)).1
  have e2 := (h.entry c0 cn (show p c ≤ j by omega) h3).1
  rw [he i e1.1 e1.2, he j e2.1 e2.2]
  exact hs c c0 cn i j h1 h2 h3

theorem toList_last {m : Mem Int} {k : Nat} (h : m.size = k + 1) : m.toList = m.toList.take k ++ [m.get k] := by
  have : m.toList = (List.range k).map (fun i : Nat => m.get i) ++ [m.get k] := by
    unfold Mem.toList
    rw [h, List.range_succ, List.map_append, List.map_singleton]
  rw [this, List.take_left' (by rw [List.length_map, List.length_range])]

/-- `colamd` of `colamd.rs` on a matrix with sorted columns. -/
theorem colamdMain_of (cast : F → Int) (options : ColamdOptions F) {nRow nCol nnz : Int} {a p : List Int}
    (h : ColumnForm (Mem.ofList a 0).get (Mem.ofList p 0).get nRow nCol) (hs : SortedColumns (Mem.ofList a 0).get (Mem.ofList p 0).get nCol)
    (hp : (p.length : Int) = nCol + 1) (hnnz : (Mem.ofList p 0).get nCol = nnz) (hr : nRow < 2 ^ 31) (hc : nCol + 1 < 2 ^ 31) (hz : 2 * nnz < 2 ^ 31)
    (hlen : 2 * nnz + nCol + 6 * (nCol + 1) + 4 * (nRow + 1) ≤ a.length) (hfit : a.length < 2 ^ 31) :
    ∃ (stats : ColamdStats) (perm : List Int), colamdMain cast options nRow nCol a p = .ok (stats, some (perm ++ [-1])) ∧ stats.status = 0 ∧
      perm.Perm (span 0 nCol.toNat) ∧
      stats.denseRow = ignoredRows (Mem.ofList a 0).get (Mem.ofList p 0).get nRow nCol (denseRowCount cast options nCol < ·) (denseColCount cast options nRow nCol < ·) ∧
      stats.denseCol = (lastColumns (Mem.ofList a 0).get (Mem.ofList p 0).get nCol (denseRowCount cast options nCol < ·) (denseColCount cast options nRow nCol < ·)).length ∧
      lastColumns (Mem.ofList a 0).get (Mem.ofList p 0).get nCol (denseRowCount cast options nCol < ·) (denseColCount cast options nRow nCol < ·) <:+ perm ∧
      ((∃ d, Ordered (Mem.ofList a 0).get (Mem.ofList p 0).get nCol (denseRowCount cast options nCol < ·) (denseColCount cast options nRow nCol < ·) d) →
        ∃ c, perm.head? = some c ∧ Ordered (Mem.ofList a 0).get (Mem.ofList p 0).get nCol (denseRowCount cast options nCol < ·) (denseColCount cast options nRow nCol < ·) c ∧
          ∀ d, Ordered (Mem.ofList a 0).get (Mem.ofList p 0).get nCol (denseRowCount cast options nCol < ·) (denseColCount cast options nRow nCol < ·) d →
            initialScore (Mem.ofList a 0).get (Mem.ofList p 0).get nRow nCol (denseRowCount cast options nCol < ·) (denseColCount cast options nRow nCol < ·) c ≤
              initialScore (Mem.ofList a 0).get (Mem.ofList p 0).get nRow nCol (denseRowCount cast options nCol < ·) (denseColCount cast options nRow nCol < ·) d) ∧
      (OneShared (Mem.ofList a 0).get (Mem.ofList p 0).get nCol (denseRowCount cast options nCol < ·) (denseColCount cast options nRow nCol < ·) → ForestOrdered (Ordered (Mem.ofList a 0).get (Mem.ofList p 0).get nCol (denseRowCount cast options nCol < ·) (denseColCount cast options nRow nCol < ·)) (Joined (Mem.ofList a 0).get (Mem.ofList p 0).get nCol (denseRowCount cast options nCol < ·) (denseColCount cast options nRow nCol < ·)) →
        OneLater (Ordered (Mem.ofList a 0).get (Mem.ofList p 0).get nCol (denseRowCount cast options nCol < ·) (denseColCount cast options nRow nCol < ·)) (Joined (Mem.ofList a 0).get (Mem.ofList p 0).get nCol (denseRowCount cast options nCol < ·) (denseColCount cast options nRow nCol < ·)) (fun c => perm.idxOf c)) := by
  have n0 := h.cols
  have m0 := h.rows
  have z0 : 0 ≤ nnz := hnnz ▸ h.nonneg h.cols (le_refl _)
  have hget : ∀ i : Nat, (i : Int) ≤ nCol → p[i]? = some ((Mem.ofList p 0).get i) := fun i hi => by
    rw [Mem.ofList_get, List.getD_eq_getElem?_getD, List.getElem?_eq_getElem (by omega)]
    rfl
  have hchk := colamdChecks_of (a := a) (p := p) (nnz := nnz) m0 hr n0 hc (by
    rw [hget _ (by omega), show ((nCol.toNat : Nat) : Int) = nCol by omega, hnnz]) z0 (by omega) (by
    have := hget 0 (by omega)
    rw [this]
    have := h.first
    simp only [Nat.cast_zero, this]) (by omega)
  obtain ⟨s1, s2, s3, s4⟩ := splitBuffer_sizes a p nCol.toNat nRow.toNat
  set b := splitBuffer a p (6 * (nCol.toNat + 1)) (4 * (nRow.toNat + 1)) with hb
  have hhead : b.head.get = (Mem.ofList p 0).get := rfl
  have hA : ∀ i, 0 ≤ i → i < (Mem.ofList p 0).get nCol → b.a.get i = (Mem.ofList a 0).get i := fun i i0 i1 => by
    rw [show i = ((i.toNat : Nat) : Int) by omega, hb, splitBuffer_a _ _ _ _ _ (by omega), Mem.ofList_get]
  have h' := h.congr hA
  have hs' := SortedColumns.congr h hs hA
  obtain ⟨b1, e1, q1, q2, q3, q4, q5, q6, q7, q8⟩ := initRowsCols_of (b := b) (stats := ColamdStats.start) h' hs' rfl hhead (by omega) (by omega) (by omega) (by omega) (by omega)
    (by omega) (by decide)
  have hst := Amd.start_of h' hs' q5 q6 q7 q8 ⟨hr, by omega, by omega⟩
  rw [hnnz] at hst
  obtain ⟨aLen, hasI, haLen⟩ : ∃ aLen : Int, asI32 (a.length - (6 * (nCol.toNat + 1) + 4 * (nRow.toNat + 1))) = aLen ∧
      aLen = ((a.length - (6 * (nCol.toNat + 1) + 4 * (nRow.toNat + 1)) : Nat) : Int) := ⟨_, asI32_of (by omega), rfl⟩
  obtain ⟨b2, nRow2, n2, maxDeg, b3, garbage, ⟨n20, n2n, r20, r2m⟩, e2, e3, w1, w2, w3, hfro, hfirst, htree, root, hg⟩ := Amd.findOrdering_of (denseRow := denseRowCount cast options nCol)
    (denseCol := denseColCount cast options nRow nCol) hst (by omega) (by omega) (by rw [q1]; omega)
    (aLen := aLen) (by omega) (by omega) (by omega) options.aggressive
  have hmul : mulI32 2 nnz = .ok (2 * nnz) := if_pos (by omega)
  obtain ⟨p', e4, v1, v2, v3, v4⟩ := C46_order_children hg n0 w1 (by omega) b3.head (by omega)
  refine ⟨{ ColamdStats.start with info3 := 0, denseRow := nRow - nRow2, denseCol := nCol - n2, defrag := garbage }, p'.toList.take nCol.toNat, ?_, rfl, v2, ?_⟩
  · unfold colamdMain
    rw [hchk, ok_bind]
    simp only
    unfold colamdOrder
    rw [← hb, e1, ok_bind]
    simp only
    rw [e2, ok_bind]
    simp only
    rw [hmul, ok_bind, hasI, e3, ok_bind]
    simp only
    rw [e4, ok_bind, i32_of (by omega) (by omega), ok_bind, i32_of (by omega) (by omega), ok_bind]
    have hlist := toList_last (m := p') (k := nCol.toNat) (by omega)
    rw [show ((nCol.toNat : Nat) : Int) = nCol by omega, v4 nCol (le_refl _), w2] at hlist
    rw [← hlist]
    rfl
  · obtain ⟨f1, f2, f3, f4, f5⟩ := Amd.initScoring_removed hst (by omega) (by omega) (by omega) (by rw [q1]; omega) e2
    have hlen' : ∀ c, 0 ≤ c → c < nCol → (b1.cols.get c).length = (Mem.ofList p 0).get (c + 1) - (Mem.ofList p 0).get c := fun c c0 cn => by rw [q6 c c0 cn]
    have hin : ∀ c r, 0 ≤ c → c < nCol → (Amd.InCol b1.cols.get b1.a.get c r ↔ Entry (Mem.ofList a 0).get (Mem.ofList p 0).get r c) := fun c r c0 cn => by
      unfold Amd.InCol Amd.Has Entry
      rw [q6 c c0 cn]
      refine exists_congr fun i => ?_
      simp only
      constructor
      · rintro ⟨i1, i2, i3⟩
        have := (h.entry c0 cn i1 (by omega)).1
        rw [q7 i this.2, hA i this.1 this.2] at i3
        exact ⟨i1, by omega, i3⟩
      · rintro ⟨i1, i2, i3⟩
        have := (h.entry c0 cn i1 (by omega)).1
        rw [q7 i this.2, hA i this.1 this.2]
        exact ⟨i1, by omega, i3⟩
    obtain ⟨g1, g2⟩ := Amd.removed_eq (m := nRow) (tr := denseRowCount cast options nCol) (tc := denseColCount cast options nRow nCol) hlen' hin
    rw [g2] at f3
    have hkeep : ∀ c, Ordered (Mem.ofList a 0).get (Mem.ofList p 0).get nCol (denseRowCount cast options nCol < ·) (denseColCount cast options nRow nCol < ·) c ↔
        Amd.AliveCol nCol b2.cols.get c := fun c => by
      constructor
      · rintro ⟨c0, cn, q⟩
        refine ⟨c0, cn, ?_⟩
        rcases (f2 c c0 cn).2 with q' | q'
        · exact q'
        · exact absurd ((f3.dead c c0 cn).1 q') q
      · rintro ⟨c0, cn, q⟩
        refine ⟨c0, cn, fun q' => ?_⟩
        have := (f3.dead c c0 cn).2 q'
        omega
    have hscore : ∀ c, Amd.AliveCol nCol b2.cols.get c → (b2.cols.get c).score =
        initialScore (Mem.ofList a 0).get (Mem.ofList p 0).get nRow nCol (denseRowCount cast options nCol < ·) (denseColCount cast options nRow nCol < ·) c := fun c hc => by
      rw [f4 c hc, Amd.startScore_eq hlen' hin hc.1 hc.2.1]
    refine ⟨?_, ?_, ?_, ?_, fun hshared hforest => ?_⟩
    rotate_left 4
    · have hrd : Amd.sparseDegree nCol (denseColCount cast options nRow nCol) b1.cols.get b1.a.get = rowCount (Mem.ofList a 0).get (Mem.ofList p 0).get nCol (denseColCount cast options nRow nCol < ·) :=
        funext (Amd.sparseDegree_eq hlen' hin)
      have hin2 : ∀ c, Amd.AliveCol nCol b2.cols.get c → ∀ r, Amd.InCol b2.cols.get b2.a.get c r ↔ Entry (Mem.ofList a 0).get (Mem.ofList p 0).get r c ∧
          ¬ RowIgnored (Mem.ofList a 0).get (Mem.ofList p 0).get nCol (denseRowCount cast options nCol < ·) (denseColCount cast options nRow nCol < ·) r := fun c hc r => by
        rw [f5 c hc r, hin c r hc.1 hc.2.1, hrd]
        rfl
      obtain ⟨k, A', t⟩ := htree _ _ (fun c d q => ⟨Ne.symm q.1, q.2.imp fun r x => ⟨x.1, x.2.2, x.2.1⟩⟩) (fun c q => q.1 rfl) (Amd.loose_of_forest hforest)
        (Amd.tree_start hshared (fun c c0 cn => (f2 c c0 cn).2) f3 hkeep hscore hin2)
      refine Amd.tree_finish t hg (v2.nodup_iff.2 (Amd.span_nodup _)) fun c c0 cn => ?_
      obtain ⟨x, y1, y2, y3⟩ := v3 c c0 cn
      obtain ⟨r0, rn, r1⟩ := hg.principal c c0 cn
      have ho := hg.order _ r0 rn r1
      refine ⟨x, y1, y2, ?_⟩
      rw [List.getElem?_take_of_lt (by omega)]
      unfold Mem.toList
      rw [List.getElem?_map, List.getElem?_range (by omega), Option.map_some, show ((x.toNat : Nat) : Int) = x by omega, y3]
    rotate_left 3
    · rintro ⟨d, hd⟩
      have hpos : 0 < n2 := by
        have hL := f3.count
        have hsub := List.subperm_of_subset (List.nodup_cons.2 ⟨hd.2.2, f3.nodup⟩) (l₂ := span 0 nCol.toNat) fun c hc => by
          rw [Amd.mem_span]
          rcases List.mem_cons.1 hc with rfl | hc
          · have := hd.1
            have := hd.2.1
            omega
          · have := f3.range c hc
            omega
        have := hsub.length_le
        rw [span_length, List.length_cons] at this
        omega
      obtain ⟨P, l1, l2, l3, l4⟩ := hfirst hpos
      have hP := l1.1
      refine ⟨P, ?_, (hkeep P).2 hP, fun d hd => ?_⟩
      · obtain ⟨x, y1, y2, y3⟩ := v3 P hP.1 hP.2.1
        rw [hg.self P hP.1 hP.2.1 l2, l3] at y1
        rw [hg.self P hP.1 hP.2.1 l2, l3, l4, (f2 P hP.1 hP.2.1).1] at y2
        rw [List.head?_eq_getElem?, List.getElem?_take_of_lt (by have := hP.2.1; have := hP.1; omega)]
        unfold Mem.toList
        rw [List.getElem?_map, List.getElem?_range (by have := hP.2.1; have := hP.1; omega), Option.map_some, show ((0 : Nat) : Int) = x by omega, y3]
      · rw [← hscore P hP, ← hscore d ((hkeep d).1 hd)]
        exact l1.2 d ((hkeep d).1 hd)
    · simp only
      rw [f1, g1]
      ring
    · simp only
      rw [f3.count]
      ring
    · set L := lastColumns (Mem.ofList a 0).get (Mem.ofList p 0).get nCol (denseRowCount cast options nCol < ·) (denseColCount cast options nRow nCol < ·)
      have hlen : (p'.toList.take nCol.toNat).length = nCol.toNat := by
        rw [v2.length_eq, span_length]
      have hnd : L.Nodup := f3.nodup
      have hle : L.length ≤ nCol.toNat := by
        have hsub : L.Subperm (span 0 nCol.toNat) := List.subperm_of_subset hnd fun c hc => by
          rw [Amd.mem_span]
          have := f3.range c hc
          omega
        have := hsub.length_le
        rwa [span_length] at this
      refine Amd.suffix_of_get (by omega) fun i hi => ?_
      obtain ⟨c0, cn⟩ := f3.range _ (List.getElem_mem hi)
      have hdead := (f3.dead _ c0 cn).2 (List.getElem_mem hi)
      obtain ⟨x1, x2, x3⟩ := hfro _ hdead
      obtain ⟨x, y1, y2, y3⟩ := v3 _ c0 cn
      rw [hg.self _ c0 cn x1, x2, x3, (f2 _ c0 cn).1, f3.place i hi, f3.count] at y2
      rw [hg.self _ c0 cn x1, x2, f3.place i hi, f3.count] at y1
      rw [hlen, List.getElem?_take_of_lt (by omega)]
      unfold Mem.toList
      rw [List.getElem?_map, List.getElem?_range (by omega), Option.map_some, show ((nCol.toNat - L.length + i : Nat) : Int) = x by omega, y3]

/-- C55: for every matrix whose columns are sorted without repetitions, with any options and a buffer of at least the required size, `colamd` returns
`Ok`, reports the input as sorted, and replaces the column pointers by a permutation of the columns followed by `-1`. In particular every access of
`colamd` through a raw pointer lies within its buffer, no `i32` operation of the scoring and the ordering overflows, and every loop ends. -/
theorem C55_colamd_permutation (cast : F → Int) (options : ColamdOptions F) {nRow nCol nnz : Int} {a p : List Int}
    (h : ColumnForm (Mem.ofList a 0).get (Mem.ofList p 0).get nRow nCol) (hs : SortedColumns (Mem.ofList a 0).get (Mem.ofList p 0).get nCol)
    (hp : (p.length : Int) = nCol + 1) (hnnz : (Mem.ofList p 0).get nCol = nnz) (hr : nRow < 2 ^ 31) (hc : nCol + 1 < 2 ^ 31) (hz : 2 * nnz < 2 ^ 31)
    (hlen : 2 * nnz + nCol + 6 * (nCol + 1) + 4 * (nRow + 1) ≤ a.length) (hfit : a.length < 2 ^ 31) :
    ∃ (ignoredRows ignoredColumns collections : Int) (perm : List Int),
      colamd cast options nRow nCol a p = .ok (.ok ⟨.ok, ignoredRows, ignoredColumns, collections⟩, some (perm ++ [-1])) ∧ perm.Perm (span 0 nCol.toNat) := by
  obtain ⟨stats, perm, e, hst, hperm, -⟩ := colamdMain_of cast options h hs hp hnnz hr hc hz hlen hfit
  refine ⟨stats.denseRow, stats.denseCol, stats.defrag, perm, ?_, hperm⟩
  unfold colamd
  rw [assertPointers_of h.cols hc hp, ok_bind, e, ok_bind]
  simp only
  unfold statsToResult
  rw [if_pos hst]
  rfl

/-- C56: for every symmetric matrix that passes the checks, sorted or not, `symamd` returns `Ok`, reports the input as sorted, and returns a
permutation followed by `-1`. -/
theorem C56_symamd_permutation [Neg F] [One F] (cast : F → Int) (options : ColamdOptions F) {n nnz : Int} {l q perm : List Int}
    (h : ColumnForm (Mem.ofList l 0).get (Mem.ofList q 0).get n n)
    (hn : n < 2 ^ 27) (hq : q.length = n.toNat + 1) (hperm : perm.length = n.toNat + 1) (hnnz : (Mem.ofList q 0).get n = nnz)
    (hlen : nnz ≤ l.length) (hi32 : nnz < 2 ^ 27) :
    ∃ (statistics : ColamdStatistics) (perm' : List Int), symamd cast options n l q perm = .ok (.ok statistics, some (perm' ++ [-1])) ∧
      perm'.Perm (span 0 n.toNat) ∧ statistics.status = .ok := by
  have n0 := h.cols
  obtain ⟨pairs, m, pointers, e1, g1, g2, g3, g4, g5, g6, g7, g8, g9⟩ := C47_matrix h (by omega) hq hperm hnnz hlen (by omega)
  have hpairs : (pairs.length : Int) ≤ nnz := by
    have h1 := allLower_length h
    have h2 : pairs.length ≤ (allLower (Mem.ofList l 0).get (Mem.ofList q 0).get n).length :=
      (List.subperm_of_subset g1 fun x hx => mem_allLower.2 ((g2 x.1 x.2).1 hx)).length_le
    omega
  obtain ⟨k1, k2, k3, k4⟩ := colamdRecommended_eq g9
  obtain ⟨stats, perm', e2, hst, hperm', -⟩ := colamdMain_of cast { options with denseColControl := options.denseRowControl, denseRowControl := -1 } g3 g4 (by omega) g8
    (by omega) (by omega) (by omega) (by omega) (by omega)
  refine ⟨⟨.ok, stats.denseCol, stats.denseCol, stats.defrag⟩, perm', ?_, hperm', rfl⟩
  unfold symamd
  rw [assertPointers_of n0 (by omega) (by omega), ok_bind, if_neg (by omega)]
  unfold symamdMain
  rw [e1, ok_bind]
  simp only
  rw [e2, ok_bind]
  simp only
  unfold statsToResult
  rw [pure_eq_ok, ok_bind]
  simp only
  rw [if_pos hst]
  rfl

/-- The matrix of the documentation of `colamd` (`lib.rs:80-101`) in a buffer of the recommended length meets the hypotheses. -/
def docRows : List Int := [0, 1, 4, 2, 4, 0, 1, 2, 3, 1, 3] ++ List.replicate 71 0
def docPointers : List Int := [0, 3, 5, 9, 11]

theorem doc_form : ColumnForm (Mem.ofList docRows 0).get (Mem.ofList docPointers 0).get 5 4 where
  rows := by decide
  cols := by decide
  first := rfl
  mono := by intro c h0 h1; interval_cases c <;> decide +kernel
  bound := by
    intro i h0 h1
    have : (Mem.ofList docPointers 0).get 4 = 11 := by decide +kernel
    rw [this] at h1
    interval_cases i <;> decide +kernel

theorem doc_sorted : SortedColumns (Mem.ofList docRows 0).get (Mem.ofList docPointers 0).get 4 := by
  intro c h0 h1 i j h2 h3 h4
  have e0 : (Mem.ofList docPointers 0).get 0 = 0 := rfl
  have e1 : (Mem.ofList docPointers 0).get 1 = 3 := rfl
  have e2 : (Mem.ofList docPointers 0).get 2 = 5 := rfl
  have e3 : (Mem.ofList docPointers 0).get 3 = 9 := rfl
  have e4 : (Mem.ofList docPointers 0).get 4 = 11 := rfl
  have h5 := lt_trans h3 h4
  interval_cases c <;> norm_num only [e0, e1, e2, e3, e4] at h2 h4 h5 <;> interval_cases i <;> interval_cases j <;> decide +kernel

example : docPointers.length = 4 + 1 ∧ (Mem.ofList docPointers 0).get 4 = 11 ∧ 2 * 11 + 4 + 6 * (4 + 1) + 4 * (5 + 1) ≤ docRows.length := by decide +kernel

end Fiksi
