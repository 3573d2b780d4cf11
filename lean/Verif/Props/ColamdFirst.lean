import Verif.Props.SymamdDense
/-!
# C84: the first column of `colamd` and `symamd`
-/
namespace Fiksi
open Spec Classical

section Congr
variable {a p : Int → Int} {m n : Int} {DR DC DR' DC' : Int → Prop}

theorem initialScore_congr (hn : 0 ≤ n) (hc : ∀ c, 0 ≤ c → c < n → (DC (p (c + 1) - p c) ↔ DC' (p (c + 1) - p c))) (hr : ∀ k, 0 ≤ k → k ≤ n → (DR k ↔ DR' k)) (c : Int) :
    initialScore a p m n DR DC c = initialScore a p m n DR' DC' c := by
  unfold initialScore
  simp only [rowIgnored_congr hn hc hr, rowCount_congr hc]

theorem rowCount_pos {r c : Int} (c0 : 0 ≤ c) (cn : c < n) (he : Entry a p r c) (hc : ¬ DC (p (c + 1) - p c)) : 0 < rowCount a p n DC r := by
  unfold rowCount
  exact Nat.cast_pos.2 (Finset.card_pos.2 ⟨c, Finset.mem_filter.2 ⟨Finset.mem_Ico.2 ⟨c0, cn⟩, he, hc⟩⟩)

theorem ordered_congr (hn : 0 ≤ n) (hc : ∀ c, 0 ≤ c → c < n → (DC (p (c + 1) - p c) ↔ DC' (p (c + 1) - p c))) (hr : ∀ k, 0 ≤ k → k ≤ n → (DR k ↔ DR' k)) (c : Int) :
    Ordered a p n DR DC c ↔ Ordered a p n DR' DC' c := by
  unfold Ordered
  rw [lastColumns_congr hn hc hr]

end Congr

/-- C84: the permutation of `colamd` begins with a column of least initial score among the columns that are not ignored. -/
theorem C84_colamd_first (options : ColamdOptions ℝ) (hrow : 0 ≤ options.denseRowControl) (hcol : 0 ≤ options.denseColControl) {nRow nCol nnz : Int} {a p : List Int}
    (h : ColumnForm (Mem.ofList a 0).get (Mem.ofList p 0).get nRow nCol) (hs : SortedColumns (Mem.ofList a 0).get (Mem.ofList p 0).get nCol)
    (hp : (p.length : Int) = nCol + 1) (hnnz : (Mem.ofList p 0).get nCol = nnz) (hr : nRow < 2 ^ 31) (hc : nCol + 1 < 2 ^ 31) (hz : 2 * nnz < 2 ^ 31)
    (hlen : 2 * nnz + nCol + 6 * (nCol + 1) + 4 * (nRow + 1) ≤ a.length) (hfit : a.length < 2 ^ 31) {DenseRow DenseCol : Int → Prop}
    (hDR : ∀ k, DenseRow k ↔ max 16 (options.denseRowControl * √(nCol.toNat : ℝ)) < (k : ℝ))
    (hDC : ∀ k, DenseCol k ↔ max 16 (options.denseColControl * √((min nRow nCol).toNat : ℝ)) < (k : ℝ))
    (hex : ∃ d, Ordered (Mem.ofList a 0).get (Mem.ofList p 0).get nCol DenseRow DenseCol d) :
    ∃ (stats : ColamdStatistics) (perm : List Int) (c : Int), colamd truncI32 options nRow nCol a p = .ok (.ok stats, some (perm ++ [-1])) ∧ perm.Perm (span 0 nCol.toNat) ∧
      perm.head? = some c ∧ Ordered (Mem.ofList a 0).get (Mem.ofList p 0).get nCol DenseRow DenseCol c ∧
      ∀ d, Ordered (Mem.ofList a 0).get (Mem.ofList p 0).get nCol DenseRow DenseCol d →
        initialScore (Mem.ofList a 0).get (Mem.ofList p 0).get nRow nCol DenseRow DenseCol c ≤ initialScore (Mem.ofList a 0).get (Mem.ofList p 0).get nRow nCol DenseRow DenseCol d := by
  obtain ⟨stats, perm, e, hst, hperm, -, -, -, hfirst, -⟩ := colamdMain_of truncI32 options h hs hp hnnz hr hc hz hlen hfit
  have q1 : ∀ c, 0 ≤ c → c < nCol → (denseColCount truncI32 options nRow nCol < (Mem.ofList p 0).get (c + 1) - (Mem.ofList p 0).get c ↔
      DenseCol ((Mem.ofList p 0).get (c + 1) - (Mem.ofList p 0).get c)) := fun c c0 cn => by
    rw [denseColCount_lt hcol (colCount_lt h hnnz hz c0 cn), hDC]
  have q2 : ∀ k, 0 ≤ k → k ≤ nCol → (denseRowCount truncI32 options nCol < k ↔ DenseRow k) := fun k k0 k1 => by
    rw [denseRowCount_lt hrow (by omega), hDR]
  have o := fun c => ordered_congr (a := (Mem.ofList a 0).get) (DR := (denseRowCount truncI32 options nCol < ·)) (DC := (denseColCount truncI32 options nRow nCol < ·)) h.cols q1 q2 c
  have i := fun c => initialScore_congr (a := (Mem.ofList a 0).get) (m := nRow) (DR := (denseRowCount truncI32 options nCol < ·)) (DC := (denseColCount truncI32 options nRow nCol < ·)) h.cols q1 q2 c
  obtain ⟨c, h1, h2, h3⟩ := hfirst (hex.imp fun d hd => (o d).2 hd)
  refine ⟨⟨.ok, stats.denseRow, stats.denseCol, stats.defrag⟩, perm, c, ?_, hperm, h1, (o c).1 h2, fun d hd => ?_⟩
  rotate_left
  · rw [← i c, ← i d]
    exact h3 d ((o d).2 hd)
  · unfold colamd
    rw [assertPointers_of h.cols hc hp, ok_bind, e, ok_bind]
    simp only
    unfold statsToResult
    rw [if_pos hst]
    rfl

section
variable {a p m q : Int → Int} {n : Int} {pairs : List (Int × Int)}

/-- The columns of `M` that take part have a neighbour and are not dense. -/
theorem symOrdered_iff (hn : 3 ≤ n) {DC : Int → Prop} (hM : ColumnForm m q pairs.length n)
    (he : ∀ c k, 0 ≤ c → c < n → (Entry m q k c ↔ ∃ i j, 0 ≤ k ∧ pairs[k.toNat]? = some (i, j) ∧ (c = i ∨ c = j)))
    (hcount : ∀ c, 0 ≤ c → c < n → q (c + 1) - q c = valency a p n c) (c : Int) :
    Ordered m q n (n - 1 < ·) DC c ↔ 0 ≤ c ∧ c < n ∧ valency a p n c ≠ 0 ∧ ¬ DC (valency a p n c) := by
  unfold Ordered
  refine and_congr_right fun c0 => and_congr_right fun cn => ?_
  unfold lastColumns
  simp only [List.mem_append, List.mem_filter, Amd.mem_span, decide_eq_true_eq]
  rw [hcount c c0 cn]
  have hsp : 0 ≤ c ∧ c < 0 + (n.toNat : Int) := ⟨c0, by omega⟩
  simp only [hsp, true_and, not_or]
  constructor
  · rintro ⟨x1, x2, x3⟩
    exact ⟨x3, fun x => x2 ⟨x3, x⟩⟩
  · rintro ⟨x1, x2⟩
    refine ⟨fun x => ?_, fun x => x2 x.2, x1⟩
    have hmono := hM.mono c c0 cn
    have := hcount c c0 cn
    have hent : Entry m q (m (q c)) c := ⟨_, le_refl _, by omega, rfl⟩
    exact symRow_kept hn he c0 cn hent (by rw [this]; exact x2) (x.2.2 _ hent)

/-- The initial score of a column of `M` counts the neighbours that are not dense. -/
theorem symScore_eq (hn : 3 ≤ n) {DC : Int → Prop} (h : ColumnForm a p n n) (hnd : pairs.Nodup) (hmem : ∀ i j, (i, j) ∈ pairs ↔ (0 ≤ j ∧ j < n) ∧ j < i ∧ Entry a p i j)
    (he : ∀ c k, 0 ≤ c → c < n → (Entry m q k c ↔ ∃ i j, 0 ≤ k ∧ pairs[k.toNat]? = some (i, j) ∧ (c = i ∨ c = j))) {c : Int} (c0 : 0 ≤ c) (cn : c < n)
    (hc : ¬ DC (q (c + 1) - q c)) :
    initialScore m q pairs.length n (n - 1 < ·) DC c = ((Finset.Ico 0 n).filter (fun d => Neighbour a p c d ∧ ¬ DC (q (d + 1) - q d))).card := by
  unfold initialScore
  set S := (Finset.Ico 0 (pairs.length : Int)).filter (fun k => Entry m q k c ∧ ¬ RowIgnored m q n (n - 1 < ·) DC k) with hS
  have hmemS : ∀ k, k ∈ S ↔ Entry m q k c := fun k => by
    rw [hS, Finset.mem_filter, Finset.mem_Ico]
    refine ⟨fun x => x.2.1, fun x => ⟨?_, x, symRow_kept hn he c0 cn x hc⟩⟩
    obtain ⟨i, j, k0, hk, _⟩ := (he c k c0 cn).1 x
    have := (List.getElem?_eq_some_iff.1 hk).1
    omega
  have hpair : ∀ {k : Nat} {i j : Int}, pairs[k]? = some (i, j) → (0 ≤ j ∧ j < n) ∧ j < i ∧ i < n ∧ Entry a p i j := fun {k i j} hk => by
    obtain ⟨h1, h2, h3⟩ := (hmem i j).1 (List.mem_of_getElem? hk)
    obtain ⟨x, x1, x2, x3⟩ := h3
    have := (h.entry h1.1 h1.2 x1 x2).2
    exact ⟨h1, h2, by omega, x, x1, x2, x3⟩
  have hterm : ∀ k ∈ S, rowCount m q n DC k - 1 = ((Finset.Ico 0 n).filter (fun d => d ≠ c ∧ Entry m q k d ∧ ¬ DC (q (d + 1) - q d))).card := fun k hk => by
    unfold rowCount
    have hmc : c ∈ (Finset.Ico 0 n).filter (fun d => Entry m q k d ∧ ¬ DC (q (d + 1) - q d)) :=
      Finset.mem_filter.2 ⟨Finset.mem_Ico.2 ⟨c0, cn⟩, (hmemS k).1 hk, hc⟩
    have : (Finset.Ico 0 n).filter (fun d => d ≠ c ∧ Entry m q k d ∧ ¬ DC (q (d + 1) - q d)) =
        ((Finset.Ico 0 n).filter (fun d => Entry m q k d ∧ ¬ DC (q (d + 1) - q d))).erase c := by
      ext d
      simp only [Finset.mem_filter, Finset.mem_erase]
      tauto
    rw [this]
    have := Finset.card_erase_add_one hmc
    omega
  rw [Finset.sum_congr rfl hterm]
  have hdc := Finset.sum_card_bipartiteAbove_eq_sum_card_bipartiteBelow (s := S) (t := Finset.Ico 0 n) (fun k d => d ≠ c ∧ Entry m q k d ∧ ¬ DC (q (d + 1) - q d))
  unfold Finset.bipartiteAbove Finset.bipartiteBelow at hdc
  have hcount : ∀ d ∈ Finset.Ico 0 n, (S.filter (fun k => d ≠ c ∧ Entry m q k d ∧ ¬ DC (q (d + 1) - q d))).card = if Neighbour a p c d ∧ ¬ DC (q (d + 1) - q d) then 1 else 0 := fun d hd => by
    rw [Finset.mem_Ico] at hd
    split
    · rename_i hq
      obtain ⟨hnb, hdd⟩ := hq
      have hne : d ≠ c := by
        rcases hnb with ⟨x, _⟩ | ⟨x, _⟩ <;> omega
      have hex : ∃ i j, (i, j) ∈ pairs ∧ ((i = c ∧ j = d) ∨ (i = d ∧ j = c)) := by
        rcases hnb with ⟨hlt, hd'⟩ | ⟨hlt, hd'⟩
        · exact ⟨d, c, (hmem d c).2 ⟨⟨c0, cn⟩, hlt, hd'⟩, Or.inr ⟨rfl, rfl⟩⟩
        · exact ⟨c, d, (hmem c d).2 ⟨hd, hlt, hd'⟩, Or.inl ⟨rfl, rfl⟩⟩
      obtain ⟨i, j, hin, hij⟩ := hex
      obtain ⟨k, hk⟩ := List.getElem?_of_mem hin
      have hlt := (hpair hk).2.1
      rw [Finset.card_eq_one]
      refine ⟨(k : Int), ?_⟩
      ext k'
      rw [Finset.mem_filter, Finset.mem_singleton, hmemS]
      constructor
      · rintro ⟨x1, _, x2, _⟩
        obtain ⟨i', j', y0, y1, y2⟩ := (he c k' c0 cn).1 x1
        obtain ⟨i'', j'', _, z1, z2⟩ := (he d k' hd.1 hd.2).1 x2
        rw [y1] at z1
        cases z1
        have hlt' := (hpair y1).2.1
        have heq : pairs[k'.toNat]? = pairs[k]? := by
          rw [y1, hk]
          congr 2 <;> omega
        have := (List.getElem?_inj (by have := (List.getElem?_eq_some_iff.1 y1).1; exact this) hnd).1 heq
        omega
      · rintro rfl
        exact ⟨(he c k c0 cn).2 ⟨i, j, by omega, by rw [Int.toNat_natCast]; exact hk, by omega⟩, hne,
          (he d k hd.1 hd.2).2 ⟨i, j, by omega, by rw [Int.toNat_natCast]; exact hk, by omega⟩, hdd⟩
    · rename_i hq
      rw [Finset.card_eq_zero, Finset.eq_empty_iff_forall_notMem]
      intro k hk
      rw [Finset.mem_filter, hmemS] at hk
      obtain ⟨x1, x2, x3, x4⟩ := hk
      refine hq ⟨?_, x4⟩
      obtain ⟨i, j, y0, y1, y2⟩ := (he c k c0 cn).1 x1
      obtain ⟨i', j', _, z1, z2⟩ := (he d k hd.1 hd.2).1 x3
      rw [y1] at z1
      cases z1
      obtain ⟨w1, w2, w3, w4⟩ := hpair y1
      rcases y2 with rfl | rfl
      · have : d = j := by omega
        subst this
        exact Or.inr ⟨w2, w4⟩
      · have : d = i := by omega
        subst this
        exact Or.inl ⟨w2, w4⟩
  rw [Finset.sum_congr rfl hcount, ← Finset.card_filter] at hdc
  rw [← Nat.cast_sum, hdc]
  have := Finset.card_filter_le (Finset.Ico 0 n) (fun d => Neighbour a p c d ∧ ¬ DC (q (d + 1) - q d))
  rw [Int.card_Ico] at this
  omega

end

/-- C84: for a symmetric matrix with at least three columns, the permutation of `symamd` begins with a column that has the fewest neighbours, where
columns without neighbours and dense columns do not take part and dense neighbours do not count. -/
theorem C84_symamd_first (options : ColamdOptions ℝ) (hctl : 0 ≤ options.denseRowControl) {n nnz : Int} {l q perm : List Int}
    (h : ColumnForm (Mem.ofList l 0).get (Mem.ofList q 0).get n n) (h3 : 3 ≤ n)
    (hn : n < 2 ^ 27) (hq : q.length = n.toNat + 1) (hperm : perm.length = n.toNat + 1) (hnnz : (Mem.ofList q 0).get n = nnz)
    (hlen : nnz ≤ l.length) (hi32 : nnz < 2 ^ 27) {Dense : Int → Prop}
    (hD : ∀ k, Dense k ↔ max 16 (options.denseRowControl * √((min (edges (Mem.ofList l 0).get (Mem.ofList q 0).get n) n).toNat : ℝ)) < (k : ℝ))
    {Kept : Int → Prop} (hK : ∀ d, Kept d ↔ 0 ≤ d ∧ d < n ∧ valency (Mem.ofList l 0).get (Mem.ofList q 0).get n d ≠ 0 ∧ ¬ Dense (valency (Mem.ofList l 0).get (Mem.ofList q 0).get n d))
    (hex : ∃ d, Kept d) :
    ∃ (stats : ColamdStatistics) (perm' : List Int) (c : Int), symamd truncI32 options n l q perm = .ok (.ok stats, some (perm' ++ [-1])) ∧ perm'.Perm (span 0 n.toNat) ∧
      perm'.head? = some c ∧ Kept c ∧
      ∀ d, Kept d → ((Finset.Ico 0 n).filter (fun e => Neighbour (Mem.ofList l 0).get (Mem.ofList q 0).get c e ∧ Kept e)).card ≤
        ((Finset.Ico 0 n).filter (fun e => Neighbour (Mem.ofList l 0).get (Mem.ofList q 0).get d e ∧ Kept e)).card := by
  have n0 := h.cols
  obtain ⟨pairs, m, pointers, e1, g1, g2, g3, g4, g5, g6, g7, g8, g9⟩ := C47_matrix h (by omega) hq hperm hnnz hlen (by omega)
  have hpairs : (pairs.length : Int) ≤ nnz := by
    have h1 := allLower_length h
    have h2 : pairs.length ≤ (allLower (Mem.ofList l 0).get (Mem.ofList q 0).get n).length :=
      (List.subperm_of_subset g1 fun x hx => mem_allLower.2 ((g2 x.1 x.2).1 hx)).length_le
    omega
  obtain ⟨k1, k2, k3, k4⟩ := colamdRecommended_eq g9
  obtain ⟨stats, perm', e2, hst, hperm', -, -, -, hfirst, -⟩ := colamdMain_of truncI32 { options with denseColControl := options.denseRowControl, denseRowControl := -1 } g3 g4 (by omega) g8
    (by omega) (by omega) (by omega) (by omega) (by omega)
  have hcount := fun c (c0 : 0 ≤ c) (cn : c < n) => symCount_eq h g1 g2 g3 g4 g5 c0 cn
  have hrow : denseRowCount truncI32 { options with denseColControl := options.denseRowControl, denseRowControl := -1 } n = n - 1 := by
    unfold denseRowCount
    rw [if_pos (by simp [FloatOps.ltB])]
  rw [hrow] at hfirst
  have q1 : ∀ c, 0 ≤ c → c < n → (denseColCount truncI32 { options with denseColControl := options.denseRowControl, denseRowControl := -1 } pairs.length n <
      (Mem.ofList pointers 0).get (c + 1) - (Mem.ofList pointers 0).get c ↔ Dense ((Mem.ofList pointers 0).get (c + 1) - (Mem.ofList pointers 0).get c)) := fun c c0 cn => by
    rw [denseColCount_lt (options := { options with denseColControl := options.denseRowControl, denseRowControl := -1 }) hctl (colCount_lt g3 g8 (by omega) c0 cn), hD, edges_eq h g1 g2]
  have q2 : ∀ k, 0 ≤ k → k ≤ n → (n - 1 < k ↔ n - 1 < k) := fun _ _ _ => Iff.rfl
  have o := fun c => ordered_congr (a := (Mem.ofList m 0).get) (DR := (n - 1 < ·)) h.cols q1 q2 c
  have i := fun c => initialScore_congr (a := (Mem.ofList m 0).get) (m := pairs.length) (DR := (n - 1 < ·)) h.cols q1 q2 c
  have hord : ∀ c, Ordered (Mem.ofList m 0).get (Mem.ofList pointers 0).get n (n - 1 < ·) Dense c ↔ Kept c := fun c => by
    rw [hK]
    exact symOrdered_iff h3 g3 g5 hcount c
  have hsc : ∀ c, Kept c → initialScore (Mem.ofList m 0).get (Mem.ofList pointers 0).get pairs.length n (n - 1 < ·) Dense c =
      ((Finset.Ico 0 n).filter (fun e => Neighbour (Mem.ofList l 0).get (Mem.ofList q 0).get c e ∧ Kept e)).card := fun c hc => by
    obtain ⟨c0, cn, c1, c2⟩ := (hK c).1 hc
    rw [symScore_eq h3 h g1 g2 g5 c0 cn (by rw [hcount c c0 cn]; exact c2)]
    congr 2
    refine Finset.filter_congr fun e he => ?_
    rw [Finset.mem_Ico] at he
    refine and_congr_right fun hnb => ?_
    rw [hcount e he.1 he.2, hK]
    refine ⟨fun x => ⟨he.1, he.2, fun hz => ?_, x⟩, fun x => x.2.2.2⟩
    unfold valency at hz
    rw [Nat.cast_eq_zero, Finset.card_eq_zero, Finset.eq_empty_iff_forall_notMem] at hz
    refine hz c (Finset.mem_filter.2 ⟨Finset.mem_Ico.2 ⟨c0, cn⟩, ?_⟩)
    rcases hnb with x | x
    · exact Or.inr x
    · exact Or.inl x
  obtain ⟨c, h1, h2, h4⟩ := hfirst (hex.imp fun d hd => (o d).2 ((hord d).2 hd))
  have hc := (hord c).1 ((o c).1 h2)
  refine ⟨⟨.ok, stats.denseCol, stats.denseCol, stats.defrag⟩, perm', c, ?_, hperm', h1, hc, fun d hd => ?_⟩
  rotate_left
  · have := h4 d ((o d).2 ((hord d).2 hd))
    rw [i c, i d, hsc c hc, hsc d hd] at this
    exact_mod_cast this
  · unfold symamd
    rw [assertPointers_of n0 (by omega) (by omega), ok_bind, if_neg (by omega)]
    unfold symamdMain
    rw [e1, ok_bind]
    simp only
    rw [e2, ok_bind]
    simp only
    unfold statsToResult
    rw [pure_eq_ok, ok_bind]
    simp only
    rw [if_pos hst]
    rfl

/-! ## Concrete cases -/

/-- The matrix of the documentation: `colamd` begins with column 1 or 3, which have the score 3. -/
theorem C84_colamd_case : ∃ (stats : ColamdStatistics) (perm : List Int) (c : Int), colamd truncI32 ⟨0, 0, true⟩ 5 4 docRows docPointers = .ok (.ok stats, some (perm ++ [-1])) ∧
    perm.head? = some c ∧ ∀ d, 0 ≤ d → d < 4 → initialScore (Mem.ofList docRows 0).get (Mem.ofList docPointers 0).get 5 4 (16 < ·) (16 < ·) c ≤
      initialScore (Mem.ofList docRows 0).get (Mem.ofList docPointers 0).get 5 4 (16 < ·) (16 < ·) d := by
  have hdense : ∀ (x : ℝ) (k : Int), (16 < k ↔ max 16 ((0 : ℝ) * x) < (k : ℝ)) := fun x k => by
    rw [zero_mul, max_eq_left (by norm_num)]
    exact_mod_cast Iff.rfl
  have e0 : (Mem.ofList docPointers 0).get 0 = 0 := rfl
  have e1 : (Mem.ofList docPointers 0).get 1 = 3 := rfl
  have e2 : (Mem.ofList docPointers 0).get 2 = 5 := rfl
  have e3 : (Mem.ofList docPointers 0).get 3 = 9 := rfl
  have e4 : (Mem.ofList docPointers 0).get 4 = 11 := rfl
  have hord : ∀ d, 0 ≤ d → d < 4 → Ordered (Mem.ofList docRows 0).get (Mem.ofList docPointers 0).get 4 (16 < ·) (16 < ·) d := fun d d0 d4 => by
    have hl : 0 < (Mem.ofList docPointers 0).get (d + 1) - (Mem.ofList docPointers 0).get d ∧ (Mem.ofList docPointers 0).get (d + 1) - (Mem.ofList docPointers 0).get d ≤ 4 := by
      interval_cases d <;> decide +kernel
    refine ⟨d0, d4, fun hm => ?_⟩
    unfold lastColumns at hm
    simp only [List.mem_append, List.mem_filter, decide_eq_true_eq] at hm
    rcases hm with ⟨-, -, -, hm⟩ | ⟨-, -, hm⟩ | ⟨-, hm⟩
    · have hent : Entry (Mem.ofList docRows 0).get (Mem.ofList docPointers 0).get ((Mem.ofList docRows 0).get ((Mem.ofList docPointers 0).get d)) d := ⟨_, le_refl _, by omega, rfl⟩
      have hr := hm _ hent
      have := (rowCount_range (a := (Mem.ofList docRows 0).get) (p := (Mem.ofList docPointers 0).get) (DC := (16 < ·)) (n := 4) (by omega)
        ((Mem.ofList docRows 0).get ((Mem.ofList docPointers 0).get d))).2
      have hpos : 0 < rowCount (Mem.ofList docRows 0).get (Mem.ofList docPointers 0).get 4 (16 < ·) ((Mem.ofList docRows 0).get ((Mem.ofList docPointers 0).get d)) := by
        exact rowCount_pos d0 d4 hent (by omega)
      unfold RowIgnored at hr
      omega
    · omega
    · omega
  obtain ⟨stats, perm, c, h1, -, h2, -, h3⟩ := C84_colamd_first ⟨0, 0, true⟩ (le_refl _) (le_refl _) (DenseRow := (16 < ·)) (DenseCol := (16 < ·)) doc_form doc_sorted (by decide +kernel) e4 (by omega) (by omega) (by omega)
    (by decide +kernel) (by decide +kernel) (fun k => hdense _ k) (fun k => hdense _ k) ⟨1, hord 1 (by omega) (by omega)⟩
  exact ⟨stats, perm, c, h1, h2, fun d d0 d4 => h3 d (hord d d0 d4)⟩

/-- The star of 17 columns, in which all columns are neighbours of column 0: `symamd` does not begin with column 0. -/
theorem C84_symamd_case : ∃ (stats : ColamdStatistics) (perm' : List Int) (c : Int), symamd truncI32 ⟨0, 0, true⟩ 17 crossRows crossPointers (List.replicate 18 0) =
    .ok (.ok stats, some (perm' ++ [-1])) ∧ perm'.head? = some c ∧ 1 ≤ c ∧ c < 17 := by
  have hnb : ∀ c e, 0 ≤ c → c < 17 → 0 ≤ e → e < 17 → (Neighbour (Mem.ofList crossRows 0).get (Mem.ofList crossPointers 0).get c e ↔ (c = 0 ∧ 1 ≤ e) ∨ (e = 0 ∧ 1 ≤ c)) := fun c e c0 cn e0 en => by
    unfold Neighbour
    rw [cross_entry c0 cn, cross_entry e0 en]
    omega
  have hval : ∀ d, 1 ≤ d → d < 17 → valency (Mem.ofList crossRows 0).get (Mem.ofList crossPointers 0).get 17 d = 1 := fun d d1 dn => by
    unfold valency
    rw [Nat.cast_eq_one, Finset.card_eq_one]
    refine ⟨0, ?_⟩
    ext e
    rw [Finset.mem_filter, Finset.mem_Ico, Finset.mem_singleton]
    constructor
    · rintro ⟨⟨e0, en⟩, q⟩
      rw [hnb d e (by omega) dn e0 en] at q
      omega
    · rintro rfl
      refine ⟨by omega, ?_⟩
      rw [hnb d 0 (by omega) dn (by omega) (by omega)]
      omega
  set Dense : Int → Prop := fun k => max 16 ((0 : ℝ) * √((min (edges (Mem.ofList crossRows 0).get (Mem.ofList crossPointers 0).get 17) 17).toNat : ℝ)) < (k : ℝ) with hDense
  obtain ⟨Kept, hKept⟩ : ∃ Kept : Int → Prop, ∀ d, Kept d ↔ 0 ≤ d ∧ d < 17 ∧ valency (Mem.ofList crossRows 0).get (Mem.ofList crossPointers 0).get 17 d ≠ 0 ∧
    ¬ Dense (valency (Mem.ofList crossRows 0).get (Mem.ofList crossPointers 0).get 17 d) := ⟨_, fun _ => Iff.rfl⟩
  have hkept : ∀ d, 1 ≤ d → d < 17 → Kept d := fun d d1 dn => by
    refine (hKept d).2 ⟨by omega, dn, by rw [hval d d1 dn]; omega, ?_⟩
    rw [hval d d1 dn, hDense]
    simp only [zero_mul]
    norm_num
  obtain ⟨stats, perm', c, h1, -, h2, h3, h4⟩ := C84_symamd_first ⟨0, 0, true⟩ (le_refl _) (Dense := Dense) (Kept := Kept) cross_form (by omega) (by omega) (by decide +kernel)
    (by decide +kernel) (cross_pointer.2 17 (by omega) (by omega)) (by decide +kernel) (by omega) (perm := List.replicate 18 0) (fun _ => Iff.rfl) hKept ⟨1, hkept 1 (by omega) (by omega)⟩
  refine ⟨stats, perm', c, h1, h2, ?_, ((hKept c).1 h3).2.1⟩
  by_contra hc
  have hc0 : c = 0 := by have := ((hKept c).1 h3).1; omega
  subst hc0
  have h5 := h4 1 (hkept 1 (by omega) (by omega))
  have h6 : ({1, 2} : Finset Int) ⊆ (Finset.Ico 0 17).filter (fun e => Neighbour (Mem.ofList crossRows 0).get (Mem.ofList crossPointers 0).get 0 e ∧ Kept e) := fun e he => by
    have he' : e = 1 ∨ e = 2 := by simpa using he
    rw [Finset.mem_filter, Finset.mem_Ico, hnb 0 e (by omega) (by omega) (by omega) (by omega)]
    exact ⟨by omega, by omega, hkept e (by omega) (by omega)⟩
  have h7 : (Finset.Ico 0 17).filter (fun e => Neighbour (Mem.ofList crossRows 0).get (Mem.ofList crossPointers 0).get 1 e ∧ Kept e) ⊆ {0} := fun e he => by
    rw [Finset.mem_filter, Finset.mem_Ico] at he
    rw [hnb 1 e (by omega) (by omega) he.1.1 he.1.2] at he
    rw [Finset.mem_singleton]
    omega
  have h8 := Finset.card_le_card h6
  have h9 := Finset.card_le_card h7
  have h10 : 2 ≤ 1 := le_trans h8 (le_trans h5 h9)
  omega

end Fiksi
