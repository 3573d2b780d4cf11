import Verif.Props.ColamdDense
/-!
# C59: the columns that `symamd` ignores
-/
namespace Fiksi
open Spec Classical

section
variable {a p m q : Int → Int} {n : Int} {pairs : List (Int × Int)}

/-- The entries of a column of `M` are the neighbours of the column. -/
theorem symCount_eq (h : ColumnForm a p n n) (hnd : pairs.Nodup) (hmem : ∀ i j, (i, j) ∈ pairs ↔ (0 ≤ j ∧ j < n) ∧ j < i ∧ Entry a p i j)
    (hM : ColumnForm m q pairs.length n) (hs : SortedColumns m q n)
    (he : ∀ c k, 0 ≤ c → c < n → (Entry m q k c ↔ ∃ i j, 0 ≤ k ∧ pairs[k.toNat]? = some (i, j) ∧ (c = i ∨ c = j))) {c : Int} (c0 : 0 ≤ c) (cn : c < n) :
    q (c + 1) - q c = valency a p n c := by
  rw [← Amd.colRows_card hs c0 cn (hM.mono c c0 cn)]
  unfold valency
  congr 1
  have hpair : ∀ {k : Nat} {i j : Int}, pairs[k]? = some (i, j) → (0 ≤ j ∧ j < n) ∧ j < i ∧ i < n ∧ Entry a p i j := fun {k i j} hk => by
    obtain ⟨h1, h2, h3⟩ := (hmem i j).1 (List.mem_of_getElem? hk)
    obtain ⟨x, x1, x2, x3⟩ := h3
    have := (h.entry h1.1 h1.2 x1 x2).2
    exact ⟨h1, h2, by omega, x, x1, x2, x3⟩
  refine Finset.card_bij (fun k _ => match pairs[k.toNat]? with
    | some (i, j) => if c = i then j else i
    | none => 0) (fun k hk => ?_) (fun k hk k' hk' hkk => ?_) (fun d hd => ?_)
  · obtain ⟨i, j, k0, hp, hc⟩ := (he c k c0 cn).1 (mem_colRows.1 hk)
    obtain ⟨h1, h2, h3, h4⟩ := hpair hp
    rw [hp, Finset.mem_filter, Finset.mem_Ico]
    simp only
    split
    · rename_i hci
      exact ⟨h1, Or.inr ⟨by omega, by rw [hci]; exact h4⟩⟩
    · rename_i hci
      have hcj := hc.resolve_left hci
      exact ⟨⟨by omega, h3⟩, Or.inl ⟨by omega, by rw [hcj]; exact h4⟩⟩
  · obtain ⟨i, j, k0, hp, hc⟩ := (he c k c0 cn).1 (mem_colRows.1 hk)
    obtain ⟨i', j', k0', hp', hc'⟩ := (he c k' c0 cn).1 (mem_colRows.1 hk')
    obtain ⟨h1, h2, h3, h4⟩ := hpair hp
    obtain ⟨h1', h2', h3', h4'⟩ := hpair hp'
    have hsame : pairs[k.toNat]? = pairs[k'.toNat]? := by
      simp only [hp, hp'] at hkk
      rw [hp, hp']
      have : i = i' ∧ j = j' := by
        split at hkk <;> split at hkk <;> omega
      rw [this.1, this.2]
    have hlt : k.toNat < pairs.length := (List.getElem?_eq_some_iff.1 hp).1
    have := (List.getElem?_inj hlt hnd).1 hsame
    omega
  · rw [Finset.mem_filter, Finset.mem_Ico] at hd
    obtain ⟨⟨d0, dn⟩, hd⟩ := hd
    have hex : ∃ i j, (i, j) ∈ pairs ∧ ((i = c ∧ j = d) ∨ (i = d ∧ j = c)) := by
      rcases hd with ⟨hlt, hd⟩ | ⟨hlt, hd⟩
      · exact ⟨d, c, (hmem d c).2 ⟨⟨c0, cn⟩, hlt, hd⟩, Or.inr ⟨rfl, rfl⟩⟩
      · exact ⟨c, d, (hmem c d).2 ⟨⟨d0, dn⟩, hlt, hd⟩, Or.inl ⟨rfl, rfl⟩⟩
    obtain ⟨i, j, hin, hij⟩ := hex
    obtain ⟨k, hk⟩ := List.getElem?_of_mem hin
    have hne := (hpair hk).2.1
    refine ⟨(k : Int), mem_colRows.2 ((he c k c0 cn).2 ⟨i, j, by omega, by rw [Int.toNat_natCast]; exact hk, by omega⟩), ?_⟩
    rw [Int.toNat_natCast, hk]
    simp only
    split <;> omega

theorem edges_eq (h : ColumnForm a p n n) (hnd : pairs.Nodup) (hmem : ∀ i j, (i, j) ∈ pairs ↔ (0 ≤ j ∧ j < n) ∧ j < i ∧ Entry a p i j) : edges a p n = pairs.length := by
  unfold edges
  rw [← List.toFinset_card_of_nodup hnd]
  congr 2
  ext ⟨i, j⟩
  rw [Finset.mem_filter, Finset.mem_product, Finset.mem_Ico, Finset.mem_Ico, List.mem_toFinset, hmem]
  constructor
  · rintro ⟨⟨h1, h2⟩, h3, h4⟩
    exact ⟨h2, h3, h4⟩
  · rintro ⟨h2, h3, h4⟩
    obtain ⟨x, x1, x2, x3⟩ := h4
    have := (h.entry h2.1 h2.2 x1 x2).2
    simp only at h3 ⊢
    exact ⟨⟨by omega, h2⟩, h3, x, x1, x2, x3⟩

/-- With at least three columns no row of `M` with a sparse column is ignored. -/
theorem symRow_kept (hn : 3 ≤ n) {DC : Int → Prop}
    (he : ∀ c k, 0 ≤ c → c < n → (Entry m q k c ↔ ∃ i j, 0 ≤ k ∧ pairs[k.toNat]? = some (i, j) ∧ (c = i ∨ c = j))) {c k : Int} (c0 : 0 ≤ c) (cn : c < n)
    (hk : Entry m q k c) (hc : ¬ DC (q (c + 1) - q c)) : ¬ RowIgnored m q n (n - 1 < ·) DC k := by
  obtain ⟨i, j, k0, hp, hij⟩ := (he c k c0 cn).1 hk
  unfold RowIgnored rowCount
  have h1 : 0 < ((Finset.Ico 0 n).filter (fun c => Entry m q k c ∧ ¬ DC (q (c + 1) - q c))).card :=
    Finset.card_pos.2 ⟨c, Finset.mem_filter.2 ⟨Finset.mem_Ico.2 ⟨c0, cn⟩, hk, hc⟩⟩
  have h2 : ((Finset.Ico 0 n).filter (fun c => Entry m q k c ∧ ¬ DC (q (c + 1) - q c))).card ≤ ({i, j} : Finset Int).card := by
    refine Finset.card_le_card fun d hd => ?_
    rw [Finset.mem_filter, Finset.mem_Ico] at hd
    obtain ⟨i', j', _, hp', hd'⟩ := (he d k hd.1.1 hd.1.2).1 hd.2.1
    rw [hp] at hp'
    cases hp'
    simpa using hd'
  have h3 : ({i, j} : Finset Int).card ≤ 2 := Finset.card_le_two
  omega

end

/-- C59: for a symmetric matrix with at least three columns, `symamd` places the columns without neighbours last, and before them those with more than
`max(16, dense_row_control * sqrt(min(edges, n)))` neighbours; these are the columns and rows it reports as ignored. (`dense_column_control` is not used.) -/
theorem C59_symamd_ignored (options : ColamdOptions ℝ) (hctl : 0 ≤ options.denseRowControl) {n nnz : Int} {l q perm : List Int}
    (h : ColumnForm (Mem.ofList l 0).get (Mem.ofList q 0).get n n) (h3 : 3 ≤ n)
    (hn : n < 2 ^ 27) (hq : q.length = n.toNat + 1) (hperm : perm.length = n.toNat + 1) (hnnz : (Mem.ofList q 0).get n = nnz)
    (hlen : nnz ≤ l.length) (hi32 : nnz < 2 ^ 27) {Dense : Int → Prop}
    (hD : ∀ k, Dense k ↔ max 16 (options.denseRowControl * √((min (edges (Mem.ofList l 0).get (Mem.ofList q 0).get n) n).toNat : ℝ)) < (k : ℝ)) :
    ∃ (collections : Int) (perm' last : List Int),
      last = (span 0 n.toNat).filter (fun c => valency (Mem.ofList l 0).get (Mem.ofList q 0).get n c ≠ 0 ∧ Dense (valency (Mem.ofList l 0).get (Mem.ofList q 0).get n c)) ++
        (span 0 n.toNat).filter (fun c => valency (Mem.ofList l 0).get (Mem.ofList q 0).get n c = 0) ∧
      symamd truncI32 options n l q perm = .ok (.ok ⟨.ok, last.length, last.length, collections⟩, some (perm' ++ [-1])) ∧ perm'.Perm (span 0 n.toNat) ∧ last <:+ perm' := by
  have n0 := h.cols
  obtain ⟨pairs, m, pointers, e1, g1, g2, g3, g4, g5, g6, g7, g8, g9⟩ := C47_matrix h (by omega) hq hperm hnnz hlen (by omega)
  have hpairs : (pairs.length : Int) ≤ nnz := by
    have h1 := allLower_length h
    have h2 : pairs.length ≤ (allLower (Mem.ofList l 0).get (Mem.ofList q 0).get n).length :=
      (List.subperm_of_subset g1 fun x hx => mem_allLower.2 ((g2 x.1 x.2).1 hx)).length_le
    omega
  obtain ⟨k1, k2, k3, k4⟩ := colamdRecommended_eq g9
  obtain ⟨stats, perm', e2, hst, hperm', f1, f2, f3, -⟩ := colamdMain_of truncI32 { options with denseColControl := options.denseRowControl, denseRowControl := -1 } g3 g4 (by omega) g8
    (by omega) (by omega) (by omega) (by omega) (by omega)
  have hcount := fun c (c0 : 0 ≤ c) (cn : c < n) => symCount_eq h g1 g2 g3 g4 g5 c0 cn
  have hrow : denseRowCount truncI32 { options with denseColControl := options.denseRowControl, denseRowControl := -1 } n = n - 1 := by
    unfold denseRowCount
    rw [if_pos (by simp [FloatOps.ltB])]
  rw [hrow] at f2 f3
  have hlast : lastColumns (Mem.ofList m 0).get (Mem.ofList pointers 0).get n (n - 1 < ·)
      (denseColCount truncI32 { options with denseColControl := options.denseRowControl, denseRowControl := -1 } pairs.length n < ·) =
      (span 0 n.toNat).filter (fun c => valency (Mem.ofList l 0).get (Mem.ofList q 0).get n c ≠ 0 ∧ Dense (valency (Mem.ofList l 0).get (Mem.ofList q 0).get n c)) ++
        (span 0 n.toNat).filter (fun c => valency (Mem.ofList l 0).get (Mem.ofList q 0).get n c = 0) := by
    rw [lastColumns_congr (DC' := Dense) (DR' := (n - 1 < ·)) n0 (fun c c0 cn => by
      rw [denseColCount_lt (options := { options with denseColControl := options.denseRowControl, denseRowControl := -1 }) hctl (colCount_lt g3 g8 (by omega) c0 cn), hD, edges_eq h g1 g2])
      (fun _ _ _ => Iff.rfl)]
    unfold lastColumns
    rw [List.filter_eq_nil_iff.2, List.nil_append]
    · congr 1
      · refine List.filter_congr fun c hc => ?_
        rw [Amd.mem_span] at hc
        rw [decide_eq_decide, hcount c hc.1 (by omega)]
      · refine List.filter_congr fun c hc => ?_
        rw [Amd.mem_span] at hc
        rw [decide_eq_decide, hcount c hc.1 (by omega)]
    · intro c hc hx
      rw [Amd.mem_span] at hc
      obtain ⟨x1, x2, x3⟩ := of_decide_eq_true hx
      have c0 : 0 ≤ c := hc.1
      have cn : c < n := by omega
      have hmono := g3.mono c c0 cn
      have hent : Entry (Mem.ofList m 0).get (Mem.ofList pointers 0).get ((Mem.ofList m 0).get ((Mem.ofList pointers 0).get c)) c := ⟨_, le_refl _, by omega, rfl⟩
      exact symRow_kept h3 g5 c0 cn hent x2 (x3 _ hent)
  rw [hlast] at f2 f3
  refine ⟨stats.defrag, perm', _, rfl, ?_, hperm', f3⟩
  rw [← f2]
  unfold symamd
  rw [assertPointers_of n0 (by omega) (by omega), ok_bind, if_neg (by omega)]
  unfold symamdMain
  rw [e1, ok_bind]
  simp only
  rw [e2, ok_bind]
  simp only
  unfold statsToResult
  rw [pure_eq_ok, ok_bind]
  simp only
  rw [if_pos hst]
  rfl

/-- The hypotheses of `C59_symamd_ignored` for the cross of 17 columns. -/
example : ∃ (collections : Int) (perm' last : List Int), symamd truncI32 ⟨0, 0, true⟩ 17 crossRows crossPointers (List.replicate 18 0) =
    .ok (.ok ⟨.ok, last.length, last.length, collections⟩, some (perm' ++ [-1])) ∧ perm'.Perm (span 0 17) :=
  let ⟨collections, perm', last, _, h1, h2, _⟩ := C59_symamd_ignored ⟨0, 0, true⟩ (le_refl _) cross_form (by omega) (by omega) (by decide +kernel) (by decide +kernel)
    (cross_pointer.2 17 (by omega) (by omega)) (by decide +kernel) (by omega) (fun _ => Iff.rfl)
  ⟨collections, perm', last, h1, h2⟩

end Fiksi
