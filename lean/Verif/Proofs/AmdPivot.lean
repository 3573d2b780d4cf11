import Verif.Proofs.AmdBase
/-!
# The pivot row
-/
namespace Fiksi.Amd
open Classical

/-- The columns that share a row with the pivot column. -/
noncomputable def pivotSet (n : Int) (C : Int → ColamdCol) (A : Int → Int) (P : Int) : Finset Int :=
  (alive n C).filter (fun d => d ≠ P ∧ ∃ r, InCol C A P r ∧ InCol C A d r)

theorem mem_pivotSet {n : Int} {C : Int → ColamdCol} {A : Int → Int} {P d : Int} :
    d ∈ pivotSet n C A P ↔ AliveCol n C d ∧ d ≠ P ∧ ∃ r, InCol C A P r ∧ InCol C A d r := by
  simp only [pivotSet, Finset.mem_filter, mem_alive]

section
variable {m n top pfree : Int} {R : Int → ColamdRow} {C : Int → ColamdCol} {A : Int → Int} {P : Int}

/-- The columns of `S` have been put into the pivot row. -/
structure PivotInv (pfree : Int) (C : Int → ColamdCol) (A : Int → Int) (P : Int) (csize asize : Nat) (Q S : Finset Int) (t : PivotState) : Prop where
  sub : S ⊆ Q
  csize : t.cols.size = csize
  asize : t.a.size = asize
  free : t.pfree = pfree + S.card
  degree : t.degree = ∑ d ∈ S, (C d).thickness
  row : Holds t.a.get pfree S.card S
  keep : ∀ i, i < pfree → t.a.get i = A i
  cols : ∀ d, t.cols.get d = if d ∈ S ∨ d = P then { C d with thickness := -(C d).thickness } else C d

theorem pivotEntry_of (h : Pattern m n top pfree R C A) (hP : AliveCol n C P) (hthick : ∀ c, AliveCol n C c → 1 ≤ (C c).thickness) {csize asize : Nat}
    (hn : n ≤ csize) (ha : pfree + (pivotSet n C A P).card ≤ asize) (hsm : pfree + (pivotSet n C A P).card < 2 ^ 31) (htot : ∑ d ∈ alive n C, (C d).thickness ≤ n) {r : Int} (hr : InCol C A P r) {S : Finset Int} {t : PivotState}
    (inv : PivotInv pfree C A P csize asize (pivotSet n C A P) S t) {y : Int} (hy1 : (R r).start ≤ y) (hy2 : y < (R r).start + (R r).length) :
    ∃ S' t', pivotEntry t y = .ok t' ∧ S ⊆ S' ∧ PivotInv pfree C A P csize asize (pivotSet n C A P) S' t' ∧
      (AliveCol n C (A y) → A y ≠ P → A y ∈ S') := by
  obtain ⟨i1, i2, i3, i4, i5, i6, i7, i8⟩ := inv
  have hra := h.colRow P hP r hr
  obtain ⟨g1, g2, g3⟩ := h.rowLen r hra
  have ht0 := h.top0
  have hy := h.entryCol hra hy1 hy2
  have hcard : (0 : Int) ≤ (pivotSet n C A P).card := by omega
  unfold pivotEntry
  rw [Mem.read_of (by omega) (by omega), ok_bind, i7 y (by omega), Mem.read_of hy.1 (by omega), ok_bind, i8 (A y)]
  by_cases hm : A y ∈ S ∨ A y = P
  · have hal : AliveCol n C (A y) := by
      rcases hm with hm | hm
      · exact (mem_pivotSet.1 (i1 hm)).1
      · rw [hm]; exact hP
    have := hthick _ hal
    rw [if_pos hm]
    simp only
    rw [if_neg (by omega)]
    exact ⟨S, t, rfl, Finset.Subset.refl _, ⟨i1, i2, i3, i4, i5, i6, i7, i8⟩, fun _ hne => hm.resolve_right hne⟩
  · rw [if_neg hm]
    by_cases hs : 0 < (C (A y)).thickness ∧ 0 ≤ (C (A y)).start
    · have hal : AliveCol n C (A y) := ⟨hy.1, hy.2, hs.2⟩
      have hS : A y ∉ S := fun hx => hm (Or.inl hx)
      have hQ : A y ∈ pivotSet n C A P := mem_pivotSet.2 ⟨hal, fun he => hm (Or.inr he), r, hr, (h.sym _ r hal hra).2 ⟨y, hy1, hy2, rfl⟩⟩
      have hsub : insert (A y) S ⊆ pivotSet n C A P := Finset.insert_subset hQ i1
      have hc := Finset.card_le_card hsub
      rw [Finset.card_insert_of_notMem hS] at hc
      have htf := h.topFree
      have hsum : (C (A y)).thickness + ∑ d ∈ S, (C d).thickness ≤ n := by
        rw [← Finset.sum_insert (f := fun d => (C d).thickness) hS]
        refine (Finset.sum_le_sum_of_subset_of_nonneg (fun d hd => mem_alive.2 (mem_pivotSet.1 (hsub hd)).1) fun d hd _ => ?_).trans htot
        have := hthick d (mem_alive.1 hd)
        omega
      have hsum0 : 0 ≤ ∑ d ∈ S, (C d).thickness := Finset.sum_nonneg fun d hd => by
        have := hthick d (mem_pivotSet.1 (i1 hd)).1
        omega
      obtain ⟨_, hsn, _⟩ := h.small
      rw [if_pos hs, i32_of (by omega) (by omega), ok_bind, Mem.write_of _ hy.1 (by omega), ok_bind, i32_of (by omega) (by omega), ok_bind, Mem.write_of _ (by omega) (by omega), ok_bind,
        i32_of (by omega) (by omega), ok_bind]
      refine ⟨insert (A y) S, _, rfl, Finset.subset_insert _ _, ⟨hsub, i2, i3, ?_, ?_, ?_, fun i hi => ?_, fun d => ?_⟩, fun _ _ => Finset.mem_insert_self _ _⟩
      · simp only [Finset.card_insert_of_notMem hS]
        push_cast
        omega
      · simp only
        rw [Finset.sum_insert hS, i5]
        ring
      · simp only [Finset.card_insert_of_notMem hS]
        push_cast
        refine i6.push hS (fun i _ hi => ?_) ?_
        · rw [Mem.put_get_ne _ _ (by omega)]
        · rw [← i4, Mem.put_get_self]
      · simp only
        rw [Mem.put_get_ne _ _ (by omega)]
        exact i7 i hi
      · simp only
        rcases eq_or_ne d (A y) with rfl | hne
        · rw [Mem.put_get_self, if_pos (Or.inl (Finset.mem_insert_self _ _))]
        · rw [Mem.put_get_ne _ _ hne, i8 d]
          simp only [Finset.mem_insert, hne, false_or]
    · rw [if_neg hs]
      refine ⟨S, t, rfl, Finset.Subset.refl _, ⟨i1, i2, i3, i4, i5, i6, i7, i8⟩, fun hal _ => ?_⟩
      have := hthick _ hal
      exact absurd ⟨by omega, hal.2.2⟩ hs

/-- The construction of the pivot row. -/
theorem pivotRow_of (h : Pattern m n top pfree R C A) (hP : AliveCol n C P) (hthick : ∀ c, AliveCol n C c → 1 ≤ (C c).thickness)
    (rows : Mem ColamdRow) (hR : rows.get = R) (hm : m ≤ rows.size) {csize asize : Nat} (hn : n ≤ csize)
    (ha : pfree + (pivotSet n C A P).card ≤ asize) (hsm : pfree + (pivotSet n C A P).card < 2 ^ 31) (htot : ∑ d ∈ alive n C, (C d).thickness ≤ n) (t : PivotState) (inv : PivotInv pfree C A P csize asize (pivotSet n C A P) ∅ t) :
    ∃ t', (span (C P).start (C P).length.toNat).foldlM (pivotRowOf rows) t = .ok t' ∧
      PivotInv pfree C A P csize asize (pivotSet n C A P) (pivotSet n C A P) t' := by
  obtain ⟨l0, lt⟩ := h.colLen P hP
  have htf := h.topFree
  have hcard : (0 : Int) ≤ (pivotSet n C A P).card := by omega
  have hP0 := hP.2.2
  obtain ⟨t', e, S, iv, hall⟩ := foldlM_span (fun x t => ∃ S, PivotInv pfree C A P csize asize (pivotSet n C A P) S t ∧
      ∀ d, AliveCol n C d → d ≠ P → ∀ j, (C P).start ≤ j → j < x → InCol C A d (A j) → d ∈ S)
    (pivotRowOf rows) (C P).start ((C P).start + (C P).length) (C P).length.toNat (by omega) t ⟨∅, inv, fun d _ _ j h1 h2 => by omega⟩ (by
    rintro x hx1 hx2 t ⟨S, iv, hall⟩
    have hr : InCol C A P (A x) := ⟨x, hx1, hx2, rfl⟩
    have hra := h.colRow P hP _ hr
    obtain ⟨g1, g2, g3⟩ := h.rowLen _ hra
    unfold pivotRowOf
    rw [Mem.read_of (by omega) (by rw [iv.asize]; omega), ok_bind, iv.keep x (by omega), Mem.read_of hra.1 (by have := hra.2.1; omega), ok_bind, hR, if_pos hra.2.2]
    obtain ⟨t', e, S', iv', hsub, hall'⟩ := foldlM_span (fun y t => ∃ S', PivotInv pfree C A P csize asize (pivotSet n C A P) S' t ∧ S ⊆ S' ∧
        ∀ i, (R (A x)).start ≤ i → i < y → AliveCol n C (A i) → A i ≠ P → A i ∈ S')
      pivotEntry (R (A x)).start ((R (A x)).start + (R (A x)).length) (R (A x)).length.toNat (by omega) t
      ⟨S, iv, Finset.Subset.refl _, fun i h1 h2 => by omega⟩ (by
      rintro y hy1 hy2 t ⟨S1, iv1, hs1, ha1⟩
      obtain ⟨S2, t2, e2, hs2, iv2, hm2⟩ := pivotEntry_of h hP hthick hn ha hsm htot hr iv1 hy1 hy2
      refine ⟨t2, e2, S2, iv2, hs1.trans hs2, fun i h1 h2 hal hne => ?_⟩
      rcases eq_or_ne i y with rfl | hiy
      · exact hm2 hal hne
      · exact hs2 (ha1 i h1 (by omega) hal hne))
    refine ⟨t', e, S', iv', fun d hd hdP j hj1 hj2 hdj => ?_⟩
    rcases eq_or_ne j x with rfl | hjx
    · obtain ⟨i, hi1, hi2, hi3⟩ := (h.sym d _ hd hra).1 hdj
      rw [← hi3]
      rw [← hi3] at hd hdP
      exact hall' i hi1 hi2 hd hdP
    · exact hsub (hall d hd hdP j hj1 (by omega) hdj))
  have hS : S = pivotSet n C A P := by
    refine Finset.Subset.antisymm iv.sub fun d hd => ?_
    rw [mem_pivotSet] at hd
    obtain ⟨hd, hne, r, ⟨j, hj1, hj2, rfl⟩, hr2⟩ := hd
    exact hall d hd hne j hj1 hj2 hr2
  rw [hS] at iv
  exact ⟨t', e, iv⟩

/-- The rows of the pivot column die. -/
theorem killRows_of (h : Pattern m n top pfree R C A) (hP : AliveCol n C P) (rows : Mem ColamdRow) (hR : rows.get = R) (hm : m ≤ rows.size)
    (a : Mem Int) (ha : pfree ≤ a.size) (hA : ∀ i, i < pfree → a.get i = A i) :
    ∃ rows', (span (C P).start (C P).length.toNat).foldlM (killRow a) rows = .ok rows' ∧ rows'.size = rows.size ∧
      ∀ r, rows'.get r = if InCol C A P r then { R r with mark := -1 } else R r := by
  obtain ⟨l0, lt⟩ := h.colLen P hP
  have htf := h.topFree
  have hP0 := hP.2.2
  obtain ⟨rows', e, hs, hr⟩ := foldlM_span (fun x (rs : Mem ColamdRow) => rs.size = rows.size ∧
      ∀ r, rs.get r = if (∃ j, (C P).start ≤ j ∧ j < x ∧ A j = r) then { R r with mark := -1 } else R r)
    (killRow a) (C P).start ((C P).start + (C P).length) (C P).length.toNat (by omega) rows ⟨rfl, fun r => by
      rw [if_neg (by rintro ⟨j, h1, h2, _⟩; omega), hR]⟩ (by
    rintro x hx1 hx2 rs ⟨hs, hr⟩
    have hra := h.entryRow hP hx1 hx2
    unfold killRow
    rw [Mem.read_of (by omega) (by omega), ok_bind, hA x (by omega), Mem.modify_of _ hra.1 (by have := hra.2.1; omega)]
    refine ⟨_, rfl, hs, fun r => ?_⟩
    rcases eq_or_ne r (A x) with rfl | hne
    · rw [Mem.put_get_self, if_pos ⟨x, hx1, by omega, rfl⟩, hr]
      by_cases hq : ∃ j, (C P).start ≤ j ∧ j < x ∧ A j = A x <;> simp only [hq, if_true, if_false]
    · rw [Mem.put_get_ne _ _ hne, hr]
      congr 1
      refine propext (exists_congr fun j => ?_)
      constructor
      · rintro ⟨h1, h2, h3⟩; exact ⟨h1, by omega, h3⟩
      · rintro ⟨h1, h2, h3⟩
        refine ⟨h1, ?_, h3⟩
        have : j ≠ x := fun he => hne (by rw [← h3, he])
        omega)
  exact ⟨rows', e, hs, hr⟩

end
end Fiksi.Amd
