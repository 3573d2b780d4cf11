import Verif.Proofs.AmdStep
/-!
# One pivot: degrees and scores afterwards
-/
namespace Fiksi.Amd
open Classical

theorem sum_biUnion_le' {s : Finset Int} {t : Int → Finset Int} {f : Int → Int} (h : ∀ x ∈ s, ∀ d ∈ t x, 0 ≤ f d) :
    ∑ d ∈ s.biUnion t, f d ≤ ∑ x ∈ s, ∑ d ∈ t x, f d := by
  induction s using Finset.induction_on with
  | empty => simp
  | insert x s hx ih =>
    rw [Finset.biUnion_insert, Finset.sum_insert hx]
    have h1 := ih (fun y hy => h y (Finset.mem_insert_of_mem hy))
    have h2 := Finset.sum_union_inter (s₁ := t x) (s₂ := s.biUnion t) (f := f)
    have h3 : 0 ≤ ∑ d ∈ t x ∩ s.biUnion t, f d := Finset.sum_nonneg fun d hd => h x (Finset.mem_insert_self _ _) d (Finset.mem_inter.1 hd).1
    linarith

section
variable {m n top pfree tag : Int} {R : Int → ColamdRow} {C : Int → ColamdCol} {A : Int → Int} {P : Int} {aggressive : Bool}

theorem weight_filter {S : Finset Int} {X : Int → Prop} {inst : DecidablePred X} :
    weight C (@Finset.filter Int X inst S) = ∑ c ∈ S, (@ite Int (X c) (propDecidable (X c)) (C c).thickness 0) := by
  unfold weight
  rw [Finset.sum_filter]
  refine Finset.sum_congr rfl fun c _ => ?_
  by_cases h : X c
  · rw [if_pos h, if_pos h]
  · rw [if_neg h, if_neg h]

namespace Pivoted
variable {n2 k : Int} {pivotRow : Int} {R' : Int → ColamdRow} {C' : Int → ColamdCol} {A' : Int → Int} {k' degree' : Int}

theorem thick (g : Pivoted n n2 tag pfree k (differenced aggressive n tag R C A P) C A P pivotRow R' C' A' k' degree') {c : Int} (hc : AliveCol n C' c) : 1 ≤ (C' c).thickness := by
  obtain ⟨root, hg⟩ := g.groups
  exact hg.pos hc.1 hc.2.1 (by have := hc.2.2; omega)

/-- Rows that stay in use have the same columns, apart from those absorbed. -/
theorem inCol_row (hp : Pattern m n top pfree R C A)
    (hw : Weights m n tag R C A)
    (g : Pivoted n n2 tag pfree k (differenced aggressive n tag R C A P) C A P pivotRow R' C' A' k' degree') {c r : Int} (hc : AliveCol n C' c)
    (hr : 0 ≤ (differenced aggressive n tag R C A P r).mark) (hrp : r ≠ pivotRow ∨ degree' ≤ 0) : InCol C' A' c r ↔ InCol C A c r := by
  obtain ⟨h1, h2, h3⟩ := (g.alive_iff c).1 hc
  by_cases hQ : c ∈ pivotSet n C A P
  · rw [g.inCol_kept hQ hc]
    have hdp := g.degree_pos hw hQ hc
    have hne : r ≠ pivotRow := hrp.resolve_right (by omega)
    simp only [hne, false_or, hr, and_true]
  · exact (g.inCol_other hp h1 h2 hQ).2 r

theorem degree_row (hp : Pattern m n top pfree R C A) (hw : Weights m n tag R C A)
    (g : Pivoted n n2 tag pfree k (differenced aggressive n tag R C A P) C A P pivotRow R' C' A' k' degree') {r : Int}
    (hr : AliveRow m (differenced aggressive n tag R C A P) r) (hrp : r ≠ pivotRow ∨ degree' ≤ 0) : (R' r).degree = weight C' (colsOf n C' A' r) := by
  obtain ⟨d1, d2⟩ := diff_alive hr.2.2
  have e1 : (R' r).degree = (R r).degree := by
    rw [(g.rowsOther r hrp).1]
    rfl
  rw [e1, hw.degree r ⟨hr.1, hr.2.1, d2⟩]
  unfold colsOf
  rw [weight_filter, weight_filter]
  rw [Finset.sum_congr rfl (fun c hc => by
    rw [show (InCol C' A' c r) = InCol C A c r from propext (g.inCol_row hp hw (mem_alive.1 hc) hr.2.2 hrp)] :
    ∀ c ∈ alive n C', (if InCol C' A' c r then (C' c).thickness else 0) = if InCol C A c r then (C' c).thickness else 0)]
  rw [g.sum (fun c => InCol C A c r) (fun c _ d _ hK => by
    have h1 := mem_keptRows (R := differenced aggressive n tag R C A P) (C := C) (A := A) (d := c) (r := r)
    have h2 := mem_keptRows (R := differenced aggressive n tag R C A P) (C := C) (A := A) (d := d) (r := r)
    rw [hK] at h1
    simp only [hr.2.2, and_true] at h1 h2
    exact h1.symm.trans h2)]
  refine (Finset.sum_filter_of_ne fun c hc hne => ?_).symm
  have hin : InCol C A c r := by
    by_contra hcon
    rw [if_neg hcon] at hne
    exact hne rfl
  refine ⟨fun q => d1 (q ▸ hin), fun _ hK => ?_⟩
  have : r ∈ keptRows (differenced aggressive n tag R C A P) C A c := mem_keptRows.2 ⟨hin, hr.2.2⟩
  rw [hK] at this
  exact absurd this (Finset.notMem_empty _)

theorem sum_pivot (g : Pivoted n n2 tag pfree k (differenced aggressive n tag R C A P) C A P pivotRow R' C' A' k' degree') :
    weight C' ((alive n C').filter (fun c => c ∈ pivotSet n C A P)) = degree' := by
  rw [weight_filter, g.sum (fun c => c ∈ pivotSet n C A P) (fun c hc d hd _ => by simp only [hc, hd]), ← weight_filter (inst := fun c => propDecidable _), g.degree]
  unfold weight
  refine Finset.sum_congr ?_ (fun _ _ => rfl)
  ext c
  simp only [Finset.mem_filter, mem_alive]
  constructor
  · rintro ⟨⟨_, _, q⟩, hQ⟩
    exact ⟨hQ, q hQ⟩
  · rintro ⟨hQ, q⟩
    have := mem_pivotSet.1 hQ
    exact ⟨⟨this.1, this.2.1, fun _ => q⟩, hQ⟩

theorem colsOf_pivot (hp : Pattern m n top pfree R C A)
    (g : Pivoted n n2 tag pfree k (differenced aggressive n tag R C A P) C A P pivotRow R' C' A' k' degree') (hd : 0 < degree') :
    colsOf n C' A' pivotRow = (alive n C').filter (fun c => c ∈ pivotSet n C A P) := by
  ext c
  simp only [mem_colsOf, Finset.mem_filter, mem_alive]
  refine and_congr_right fun hc => ?_
  obtain ⟨h1, h2, h3⟩ := (g.alive_iff c).1 hc
  by_cases hQ : c ∈ pivotSet n C A P
  · rw [g.inCol_kept hQ hc]
    simp only [hQ, true_or]
  · rw [(g.inCol_other hp h1 h2 hQ).2]
    simp only [hQ, iff_false]
    intro hin
    exact hQ (mem_pivotSet.2 ⟨h1, h2, _, (g.rowPivot hd).2, hin⟩)

theorem total (g : Pivoted n n2 tag pfree k (differenced aggressive n tag R C A P) C A P pivotRow R' C' A' k' degree')
    (ht : k + weight C ((alive n C).erase P) = n2) : k' + weight C' (alive n C') = n2 := by
  have h := g.sum (fun _ => True) (fun _ _ _ _ _ => Iff.rfl)
  simp only [if_true] at h
  have hs : weight C ((alive n C).erase P) = weight C ((alive n C).filter (fun c => c ≠ P ∧ (c ∈ pivotSet n C A P → keptRows (differenced aggressive n tag R C A P) C A c ≠ ∅))) +
      weight C ((pivotSet n C A P).filter (fun d => keptRows (differenced aggressive n tag R C A P) C A d = ∅)) := by
    unfold weight
    rw [← Finset.sum_union]
    · refine Finset.sum_congr ?_ (fun _ _ => rfl)
      ext c
      simp only [Finset.mem_erase, Finset.mem_union, Finset.mem_filter, mem_alive, mem_pivotSet]
      tauto
    · rw [Finset.disjoint_left]
      intro c h1 h2
      simp only [Finset.mem_filter] at h1 h2
      exact h1.2.2 h2.1 h2.2
  rw [g.k, ← ht, hs]
  have h' : weight C' (alive n C') = weight C ((alive n C).filter (fun c => c ≠ P ∧ (c ∈ pivotSet n C A P → keptRows (differenced aggressive n tag R C A P) C A c ≠ ∅))) := h
  rw [h']
  ring

theorem score_other (hp : Pattern m n top pfree R C A) (hw : Weights m n tag R C A) (htag : 1 ≤ tag)
    (g : Pivoted n n2 tag pfree k (differenced aggressive n tag R C A P) C A P pivotRow R' C' A' k' degree') {c : Int} (hc : AliveCol n C' c)
    (hQ : c ∉ pivotSet n C A P) : weight C' (pivotSet n C' A' c) ≤ weight C (pivotSet n C A c) := by
  obtain ⟨h1, h2, _⟩ := (g.alive_iff c).1 hc
  have hrow : ∀ r, InCol C A c r → 0 ≤ (differenced aggressive n tag R C A P r).mark ∧ (r ≠ pivotRow ∨ degree' ≤ 0) := fun r hr => by
    refine ⟨diff_other hw hp htag h1 hQ h2 hr, ?_⟩
    by_cases hd : 0 < degree'
    · left
      rintro rfl
      exact hQ (mem_pivotSet.2 ⟨h1, h2, r, (g.rowPivot hd).2, hr⟩)
    · right; omega
  have e1 : pivotSet n C' A' c = (alive n C').filter (fun d => d ≠ c ∧ ∃ r, InCol C A c r ∧ InCol C A d r) := by
    ext d
    simp only [mem_pivotSet, Finset.mem_filter, mem_alive]
    refine and_congr_right fun hd => and_congr_right fun _ => exists_congr fun r => ?_
    rw [(g.inCol_other hp h1 h2 hQ).2]
    refine and_congr_right fun hr => ?_
    obtain ⟨r1, r2⟩ := hrow r hr
    exact g.inCol_row hp hw hd r1 r2
  rw [e1, weight_filter, g.sum (fun d => d ≠ c ∧ ∃ r, InCol C A c r ∧ InCol C A d r)]
  · have e2 : pivotSet n C A c = (alive n C).filter (fun d => d ≠ c ∧ ∃ r, InCol C A c r ∧ InCol C A d r) := rfl
    rw [e2, weight_filter]
    exact Finset.sum_le_sum_of_subset_of_nonneg (Finset.filter_subset _ _) (fun d hd _ => by
      have := hw.thick d (mem_alive.1 hd)
      split <;> omega)
  · intro d hd e he hK
    have hdc : d ≠ c := fun q => hQ (q ▸ hd)
    have hec : e ≠ c := fun q => hQ (q ▸ he)
    simp only [ne_eq, hdc, not_false_iff, hec, true_and]
    refine exists_congr fun r => and_congr_right fun hr => ?_
    have k1 := mem_keptRows (R := differenced aggressive n tag R C A P) (C := C) (A := A) (d := d) (r := r)
    have k2 := mem_keptRows (R := differenced aggressive n tag R C A P) (C := C) (A := A) (d := e) (r := r)
    rw [hK] at k1
    simp only [(hrow r hr).1, and_true] at k1 k2
    exact k1.symm.trans k2

theorem score_kept (hp : Pattern m n top pfree R C A) (hw : Weights m n tag R C A) (hn2 : n2 ≤ n)
    (g : Pivoted n n2 tag pfree k (differenced aggressive n tag R C A P) C A P pivotRow R' C' A' k' degree')
    (ht : k' + weight C' (alive n C') = n2) (hk : 0 ≤ k') {c : Int} (hc : AliveCol n C' c)
    (hQ : c ∈ pivotSet n C A P) : weight C' (pivotSet n C' A' c) ≤ (C' c).score := by
  obtain ⟨h1, h2, h3⟩ := (g.alive_iff c).1 hc
  obtain ⟨h4, h5⟩ := h3 hQ
  obtain ⟨k1, k2, k3⟩ := g.kept c hQ h4 h5
  have hdp := g.degree_pos hw hQ hc
  have hnn : ∀ d ∈ alive n C', 0 ≤ (C' d).thickness := fun d hd => by
    have := g.thick (mem_alive.1 hd)
    omega
  have hall : weight C' (pivotSet n C' A' c) + (C' c).thickness ≤ weight C' (alive n C') := by
    have hnot : c ∉ pivotSet n C' A' c := fun q => (mem_pivotSet.1 q).2.1 rfl
    rw [add_comm, ← weight_insert hnot]
    refine weight_mono (fun d hd => ?_) hnn
    rcases Finset.mem_insert.1 hd with rfl | hd
    · exact mem_alive.2 hc
    · exact mem_alive.2 (mem_pivotSet.1 hd).1
  rw [k3]
  refine le_min (by omega) ?_
  suffices h : weight C' (pivotSet n C' A' c) ≤ (∑ r ∈ keptRows (differenced aggressive n tag R C A P) C A c, ((differenced aggressive n tag R C A P r).mark - tag)) +
      (degree' - (C' c).thickness) by
    unfold keptScore
    have : weight C' (pivotSet n C' A' c) ≤ n + (degree' - (C' c).thickness) := by omega
    omega
  -- the columns of the pivot row, and the others
  have hsplit : weight C' (pivotSet n C' A' c) = weight C' ((pivotSet n C' A' c).filter (fun d => d ∈ pivotSet n C A P)) +
      weight C' ((pivotSet n C' A' c).filter (fun d => d ∉ pivotSet n C A P)) := (Finset.sum_filter_add_sum_filter_not _ _ _).symm
  have hfirst : weight C' ((pivotSet n C' A' c).filter (fun d => d ∈ pivotSet n C A P)) ≤ degree' - (C' c).thickness := by
    have hm : c ∈ (alive n C').filter (fun d => d ∈ pivotSet n C A P) := Finset.mem_filter.2 ⟨mem_alive.2 hc, hQ⟩
    have hsum := g.sum_pivot
    have hadd : (C' c).thickness + weight C' (((alive n C').filter (fun d => d ∈ pivotSet n C A P)).erase c) = weight C' ((alive n C').filter (fun d => d ∈ pivotSet n C A P)) :=
      Finset.add_sum_erase _ (fun d => (C' d).thickness) hm
    have : weight C' ((pivotSet n C' A' c).filter (fun d => d ∈ pivotSet n C A P)) ≤ weight C' (((alive n C').filter (fun d => d ∈ pivotSet n C A P)).erase c) := by
      refine weight_mono (fun d hd => ?_) (fun d hd => hnn d (Finset.mem_filter.1 (Finset.mem_erase.1 hd).2).1)
      obtain ⟨q1, q2⟩ := Finset.mem_filter.1 hd
      obtain ⟨p1, p2, _⟩ := mem_pivotSet.1 q1
      exact Finset.mem_erase.2 ⟨p2, Finset.mem_filter.2 ⟨mem_alive.2 p1, q2⟩⟩
    omega
  have hsecond : weight C' ((pivotSet n C' A' c).filter (fun d => d ∉ pivotSet n C A P)) ≤
      ∑ r ∈ keptRows (differenced aggressive n tag R C A P) C A c, ((differenced aggressive n tag R C A P r).mark - tag) := by
    have hval : ∀ r ∈ keptRows (differenced aggressive n tag R C A P) C A c, (differenced aggressive n tag R C A P r).mark - tag = weight C (outside n C A P r) := fun r hr => by
      obtain ⟨q1, q2⟩ := mem_keptRows.1 hr
      exact diff_value hw hp hQ q1 q2
    rw [Finset.sum_congr rfl hval]
    have hthick : ∀ r ∈ keptRows (differenced aggressive n tag R C A P) C A c, ∀ d ∈ outside n C A P r, 0 ≤ (C d).thickness := fun r _ d hd => by
      have := hw.thick d (mem_colsOf.1 (Finset.mem_filter.1 hd).1).1
      omega
    refine le_trans ?_ (sum_biUnion_le' hthick)
    have hsame : weight C' ((pivotSet n C' A' c).filter (fun d => d ∉ pivotSet n C A P)) = weight C ((pivotSet n C' A' c).filter (fun d => d ∉ pivotSet n C A P)) := by
      refine Finset.sum_congr rfl fun d hd => ?_
      obtain ⟨q1, q2⟩ := Finset.mem_filter.1 hd
      obtain ⟨_, p2, _⟩ := (g.alive_iff d).1 (mem_pivotSet.1 q1).1
      rw [g.other d q2 p2]
    rw [hsame]
    refine Finset.sum_le_sum_of_subset_of_nonneg (fun d hd => ?_) (fun d hd _ => ?_)
    · obtain ⟨q1, q2⟩ := Finset.mem_filter.1 hd
      obtain ⟨p1, p2, r, p3, p4⟩ := mem_pivotSet.1 q1
      obtain ⟨o1, o2, _⟩ := (g.alive_iff d).1 p1
      have hin := ((g.inCol_other hp o1 o2 q2).2 r).1 p4
      rcases (g.inCol_kept hQ hc r).1 p3 with rfl | p3
      · exact absurd (mem_pivotSet.2 ⟨o1, o2, r, (g.rowPivot hdp).2, hin⟩) q2
      · exact Finset.mem_biUnion.2 ⟨r, mem_keptRows.2 p3, Finset.mem_filter.2 ⟨mem_colsOf.2 ⟨o1, hin⟩, q2⟩⟩
    · obtain ⟨r, hr, hd⟩ := Finset.mem_biUnion.1 hd
      exact hthick r hr d hd
  omega

end Pivoted
end
end Fiksi.Amd
