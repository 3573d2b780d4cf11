import Verif.Proofs.AmdScoring
/-!
# The state before the first pivot
-/
namespace Fiksi.Amd
open Classical

section
variable {m n nnz : Int} {R0 R : Int → ColamdRow} {C0 C C' : Int → ColamdCol} {A A' : Int → Int} {k2 : Int}

/-- The rows after dense and empty rows have been removed. -/
structure RowsReady (m n : Int) (R0 : Int → ColamdRow) (C : Int → ColamdCol) (A : Int → Int) (R : Int → ColamdRow) : Prop where
  place : ∀ r, 0 ≤ r → r < m → (R r).start = (R0 r).start ∧ (R r).length = (R0 r).length
  degree : ∀ r, 0 ≤ r → r < m → (R r).degree = (colsOf n C A r).card

theorem colsOf_scored (h : Scored n R C A C' A' k2) {r : Int} (hr : 0 ≤ (R r).mark) : colsOf n C' A' r = colsOf n C A r := by
  ext c
  rw [mem_colsOf, mem_colsOf]
  constructor
  · rintro ⟨hc, hin⟩
    unfold InCol at hin
    rw [h.cols c hc] at hin
    have := ((h.held c hc).2.2 r).1 hin
    exact ⟨((h.live c).1 hc).1, (mem_keptRows.1 this).1⟩
  · rintro ⟨hc, hin⟩
    have hk : r ∈ keptRows R C A c := mem_keptRows.2 ⟨hin, hr⟩
    have hc' : AliveCol n C' c := (h.live c).2 ⟨hc, Finset.ne_empty_of_mem hk⟩
    refine ⟨hc', ?_⟩
    unfold InCol
    rw [h.cols c hc']
    exact ((h.held c hc').2.2 r).2 hk

theorem inCol_scored (h : Scored n R C A C' A' k2) {c r : Int} (hc : AliveCol n C' c) : InCol C' A' c r ↔ InCol C A c r ∧ 0 ≤ (R r).mark := by
  rw [← mem_keptRows, ← (h.held c hc).2.2 r]
  unfold InCol
  rw [h.cols c hc]

theorem scored_pattern (hst : Start m n nnz R0 C0 A) (hu : Unchanged n C0 C) (hrr : RowsReady m n R0 C A R) (h : Scored n R C A C' A' k2) :
    Pattern m n nnz (2 * nnz) R C' A' := by
  have hP := hst.restrict hu
  have hal : ∀ c, AliveCol n C' c → AliveCol n C c := fun c hc => ((h.live c).1 hc).1
  have hrow : ∀ r, AliveRow m R r → AliveRow m R0 r := fun r hr => ⟨hr.1, hr.2.1, by rw [hst.marks r hr.1 hr.2.1]⟩
  have hKc : ∀ c, AliveCol n C c → ((keptRows R C A c).card : Int) ≤ (C c).length := fun c hc => by
    have hh := holds_image (hP.colInj c hc) (hP.colLen c hc).1
    rw [hh.card]
    exact_mod_cast Finset.card_le_card (Finset.filter_subset _ _)
  have hfar : ∀ i, nnz ≤ i → A' i = A i := fun i hi => h.afar i fun c hc => Or.inr (by
    have := hKc c hc
    have := hP.colLen c hc
    omega)
  have hrowCells : ∀ r, AliveRow m R r → ∀ c, InRow R A' r c ↔ InRow R0 A r c := fun r hr c => by
    unfold InRow
    obtain ⟨e1, e2⟩ := hrr.place r hr.1 hr.2.1
    rw [e1, e2]
    have := hP.rowLen r (hrow r hr)
    exact has_congr fun i h1 h2 => hfar i (by omega)
  refine ⟨hP.rows0, hP.cols0, hP.top0, hP.topFree, hP.small, fun c hc => ?_, fun c d hc hd hlt => ?_, fun r hr => ?_, fun r s hr hs hne => ?_, fun i i0 i1 => ?_, fun c hc => ?_, fun r hr => ?_,
    fun c hc r hr => ?_, fun r hr c hc => ?_, fun c r hc hr => ?_⟩
  · rw [h.cols c hc]
    have := hKc c (hal c hc)
    have := hP.colLen c (hal c hc)
    simp only
    omega
  · rw [h.cols c hc, h.cols d hd]
    have := hKc c (hal c hc)
    have := hP.colOrd c d (hal c hc) (hal d hd) hlt
    simp only
    omega
  · obtain ⟨e1, e2⟩ := hrr.place r hr.1 hr.2.1
    rw [e1, e2]
    exact hP.rowLen r (hrow r hr)
  · obtain ⟨e1, e2⟩ := hrr.place r hr.1 hr.2.1
    obtain ⟨e3, e4⟩ := hrr.place s hs.1 hs.2.1
    rw [e1, e2, e3, e4]
    exact hP.rowDisj r s (hrow r hr) (hrow s hs) hne
  · by_cases hex : ∃ c, AliveCol n C c ∧ (C c).start ≤ i ∧ i < (C c).start + (keptRows R C A c).card
    · obtain ⟨c, hc, h1, h2⟩ := hex
      have hc' : AliveCol n C' c := (h.live c).2 ⟨hc, fun q => by rw [q, Finset.card_empty] at h2; omega⟩
      have := (h.held c hc').mem h1 h2
      exact (hP.colRow c hc _ (mem_keptRows.1 this).1).1
    · rw [h.afar i fun c hc => by
        by_contra hcon
        exact hex ⟨c, hc, by omega, by omega⟩]
      exact hP.cells i i0 i1
  · rw [h.cols c hc]
    exact (h.held c hc).1
  · obtain ⟨e1, e2⟩ := hrr.place r hr.1 hr.2.1
    rw [e1, e2]
    have := hP.rowLen r (hrow r hr)
    exact (hP.rowInj r (hrow r hr)).congr fun i h1 h2 => hfar i (by omega)
  · obtain ⟨q1, q2⟩ := (inCol_scored h hc).1 hr
    have := hP.colRow c (hal c hc) r q1
    exact ⟨this.1, this.2.1, q2⟩
  · exact hP.rowCol r (hrow r hr) c ((hrowCells r hr c).1 hc)
  · rw [inCol_scored h hc, hrowCells r hr c, ← hP.sym c r (hal c hc) (hrow r hr)]
    exact ⟨fun q => q.1, fun q => ⟨q, hr.2.2⟩⟩

theorem thick_weight (hr : Removed n C' k2) {S : Finset Int} (hS : ∀ c ∈ S, 0 ≤ c ∧ c < n) : weight C' S = S.card := by
  unfold weight
  rw [Finset.sum_congr rfl fun c hc => hr.thick c (hS c hc).1 (hS c hc).2]
  simp

theorem colsOf_range {r : Int} : ∀ c ∈ colsOf n C A r, 0 ≤ c ∧ c < n := fun c hc =>
  ⟨(mem_colsOf.1 hc).1.1, (mem_colsOf.1 hc).1.2.1⟩

theorem startScore_range (hrr : RowsReady m n R0 C A R) (hP : Pattern m n nnz (2 * nnz) R0 C A) {c : Int} (hc : AliveCol n C c) : 0 ≤ startScore n R C A c ∧ startScore n R C A c ≤ n := by
  unfold startScore
  have hn := hP.cols0
  have : 0 ≤ ∑ r ∈ keptRows R C A c, ((R r).degree - 1) := Finset.sum_nonneg fun r hr => by
    have hin := (mem_keptRows.1 hr).1
    have hrow := hP.colRow c hc r hin
    rw [hrr.degree r hrow.1 hrow.2.1]
    have : 0 < (colsOf n C A r).card := Finset.card_pos.2 ⟨c, mem_colsOf.2 ⟨hc, hin⟩⟩
    omega
  omega

/-- The initial score bounds the columns that meet a column. -/
theorem startScore_bound (hrr : RowsReady m n R0 C A R) (hP : Pattern m n nnz (2 * nnz) R0 C A) (h : Scored n R C A C' A' k2) {c : Int} (hc : AliveCol n C' c) :
    weight C' (pivotSet n C' A' c) ≤ (C' c).score := by
  have hn := hP.cols0
  have hcC := ((h.live c).1 hc).1
  have hsub0 : ∀ d ∈ pivotSet n C' A' c, 0 ≤ d ∧ d < n := fun d hd => by
    have := (mem_pivotSet.1 hd).1
    exact ⟨this.1, this.2.1⟩
  rw [thick_weight h.removed hsub0, h.cols c hc]
  simp only
  unfold startScore
  refine le_min ?_ ?_
  · have : (pivotSet n C' A' c).card ≤ (Finset.Ico 0 n).card := Finset.card_le_card fun d hd => Finset.mem_Ico.2 (hsub0 d hd)
    rw [Int.card_Ico] at this
    omega
  · have hsub : pivotSet n C' A' c ⊆ (keptRows R C A c).biUnion fun r => (colsOf n C A r).erase c := by
      intro d hd
      obtain ⟨hd1, hd2, r, hr1, hr2⟩ := mem_pivotSet.1 hd
      have k1 := (inCol_scored h hc).1 hr1
      have k2 := (inCol_scored h hd1).1 hr2
      exact Finset.mem_biUnion.2 ⟨r, mem_keptRows.2 k1, Finset.mem_erase.2 ⟨hd2, mem_colsOf.2 ⟨((h.live d).1 hd1).1, k2.1⟩⟩⟩
    have h1 := (Finset.card_le_card hsub).trans Finset.card_biUnion_le
    have h2 : ((∑ r ∈ keptRows R C A c, ((colsOf n C A r).erase c).card : Nat) : Int) = ∑ r ∈ keptRows R C A c, ((R r).degree - 1) := by
      push_cast
      refine Finset.sum_congr rfl fun r hr => ?_
      have hin := (mem_keptRows.1 hr).1
      have hrow := hP.colRow c hcC r hin
      have hmem := mem_colsOf.2 ⟨hcC, hin⟩
      rw [hrr.degree r hrow.1 hrow.2.1, Finset.card_erase_of_mem hmem]
      have : 0 < (colsOf n C A r).card := Finset.card_pos.2 ⟨c, hmem⟩
      omega
    rw [← h2]
    exact_mod_cast h1

/-- The degree lists are filled. -/
theorem listColumns_of (hn0 : 0 ≤ n) (cols : Mem ColamdCol) (hn : n ≤ cols.size) (head : Mem Int) (hh : n < head.size) (hhead : ∀ i, 0 ≤ i → i ≤ n → head.get i = -1)
    (hsc : ∀ c, AliveCol n cols.get c → 0 ≤ (cols.get c).score ∧ (cols.get c).score ≤ n) :
    ∃ cols' head', (span 0 n.toNat).reverse.foldlM listColumn (cols, head) = .ok (cols', head') ∧ cols'.size = cols.size ∧ head'.size = head.size ∧ SameLinks cols.get cols'.get ∧
      DegLists n (AliveCol n cols'.get) head'.get (fun c => (cols'.get c).score) (fun c => (cols'.get c).prev) (fun c => (cols'.get c).next) := by
  obtain ⟨⟨cols', head'⟩, e, h1, h2, h3, h4⟩ := foldlM_span_reverse (fun x (s : Mem ColamdCol × Mem Int) => s.1.size = cols.size ∧ s.2.size = head.size ∧ SameLinks cols.get s.1.get ∧
      DegLists n (fun c => AliveCol n cols.get c ∧ x ≤ c) s.2.get (fun c => (cols.get c).score) (fun c => (s.1.get c).prev) (fun c => (s.1.get c).next))
      listColumn n.toNat (cols, head) ⟨rfl, rfl, ⟨fun c => rfl⟩, ⟨fun c hc => by
        have := hc.1.2.1
        omega, fun c hc => by
        have := hc.1.2.1
        omega, fun c hc => by
        have := hc.1.2.1
        omega, fun i i0 i1 => Or.inl (hhead i i0 i1), fun _ => 0, fun c hc => by
        have := hc.1.2.1
        omega⟩⟩ (by
    rintro x' _ xn ⟨cs, hd⟩ ⟨i1, i2, i3, i4⟩
    simp only at i1 i2 i3 i4
    obtain ⟨x, hx⟩ : ∃ x : Int, x = x' := ⟨_, rfl⟩
    rw [← hx] at i4 ⊢
    have x0 : 0 ≤ x := by omega
    unfold listColumn
    simp only
    rw [Mem.read_of x0 (by omega), ok_bind, i3.start, i3.score]
    by_cases hl : 0 ≤ (cols.get x).start
    · rw [if_pos hl]
      have hal : AliveCol n cols.get x := ⟨x0, by omega, hl⟩
      obtain ⟨s0, s1⟩ := hsc x hal
      have hnl : ¬ (AliveCol n cols.get x ∧ x + 1 ≤ x) := fun q => by omega
      obtain ⟨cs', hd', f1, f2, f3, f4, f5⟩ := pushDegree_of cs hd i4 hnl x0 (by omega) s0 s1 (by omega) (by omega)
      have g3 : ∀ c, cs'.get c = { cs.get c with prev := (cs'.get c).prev, next := (cs'.get c).next } := fun c => by
        rw [f5 c]
        by_cases e1 : c = x
        · rw [if_pos e1, e1]
        · rw [if_neg e1]
          by_cases e2 : c = hd.get (cols.get x).score ∧ hd.get (cols.get x).score ≠ -1
          · rw [if_pos e2]
          · rw [if_neg e2]
      refine ⟨_, f1, by simp only; omega, by simp only; omega, ⟨fun c => ?_⟩, ?_⟩
      · simp only
        rw [g3 c, i3.eq c]
      · refine i4.push hnl x0 (by omega) s0 s1 (fun d => ?_) (fun i hi => ?_) ?_ rfl (fun d _ => rfl) ?_ (fun d hd1 => ?_) ?_ (fun d hd1 => ?_)
        · constructor
          · rintro ⟨q1, q2⟩
            rcases eq_or_ne d x with q | q
            · exact Or.inr q
            · exact Or.inl ⟨q1, by omega⟩
          · rintro (⟨q1, q2⟩ | rfl)
            · exact ⟨q1, by omega⟩
            · exact ⟨hal, le_refl _⟩
        · simp only; rw [f4, if_neg hi]
        · simp only; rw [f4, if_pos rfl]
        · simp only; rw [f5, if_pos rfl]
        · have hne : d ≠ x := by omega
          simp only
          rw [f5 d, if_neg hne]
          by_cases e2 : d = hd.get (cols.get x).score
          · have : hd.get (cols.get x).score ≠ -1 := by
              have := hd1.1.1
              omega
            rw [if_pos ⟨e2, this⟩, if_pos e2]
          · rw [if_neg (fun q => e2 q.1), if_neg e2]
        · simp only; rw [f5, if_pos rfl]
        · have hne : d ≠ x := by omega
          simp only
          rw [f5 d, if_neg hne]
          by_cases e2 : d = hd.get (cols.get x).score ∧ hd.get (cols.get x).score ≠ -1
          · rw [if_pos e2]
          · rw [if_neg e2]
    · rw [if_neg hl]
      refine ⟨_, rfl, i1, i2, i3, i4.congr (fun c => ?_) (fun _ _ _ => rfl) (fun _ _ => rfl) (fun _ _ => rfl) (fun _ _ => rfl)⟩
      constructor
      · rintro ⟨q1, q2⟩
        refine ⟨q1, ?_⟩
        rcases eq_or_ne c x with rfl | hne
        · exact absurd q1.2.2 hl
        · omega
      · rintro ⟨q1, q2⟩
        exact ⟨q1, by omega⟩)
  refine ⟨cols', head', e, h1, h2, h3, h4.congr (fun c => ?_) (fun _ _ _ => rfl) (fun c _ => h3.score c) (fun _ _ => rfl) (fun _ _ => rfl)⟩
  rw [h3.aliveCol]
  exact ⟨fun q => ⟨q, q.1⟩, fun q => q.1⟩

end
end Fiksi.Amd
