import Verif.Proofs.AmdStart
/-!
# The initial scores
-/
namespace Fiksi.Amd
open Classical

/-- Columns that are removed before the ordering starts are placed at the end, from `k2` on. -/
structure Removed (n : Int) (C : Int → ColamdCol) (k2 : Int) : Prop where
  kind : ∀ c, 0 ≤ c → c < n → 0 ≤ (C c).start ∨ (C c).start = -1
  thick : ∀ c, 0 ≤ c → c < n → (C c).thickness = 1
  placed : Placed n 0 k2 (fun c => 0 ≤ c ∧ c < n ∧ (C c).start = -1) C
  card : ((alive n C).card : Int) = k2

namespace Removed
variable {n k2 : Int} {C C' : Int → ColamdCol}

theorem le (h : Removed n C k2) (hn : 0 ≤ n) : 0 ≤ k2 ∧ k2 ≤ n := by
  have h1 := h.card
  have h2 : (alive n C).card ≤ (Finset.Ico 0 n).card := Finset.card_le_card (Finset.filter_subset _ _)
  rw [Int.card_Ico] at h2
  omega

theorem pos (h : Removed n C k2) {c : Int} (hc : AliveCol n C c) : 1 ≤ k2 := by
  have h1 := h.card
  have : 0 < (alive n C).card := Finset.card_pos.2 ⟨c, mem_alive.2 hc⟩
  omega

theorem congr (h : Removed n C k2) (hs : ∀ c, 0 ≤ c → c < n → (C' c).start = (C c).start) (ht : ∀ c, 0 ≤ c → c < n → (C' c).thickness = (C c).thickness)
    (hsc : ∀ c, 0 ≤ c → c < n → (C c).start = -1 → (C' c).score = (C c).score) : Removed n C' k2 := by
  refine ⟨fun c c0 cn => by rw [hs c c0 cn]; exact h.kind c c0 cn, fun c c0 cn => by rw [ht c c0 cn]; exact h.thick c c0 cn, h.placed.congr (fun c hc => ?_) (fun c hc => ?_), ?_⟩
  · rw [hs c hc.1 hc.2.1] at hc
    exact hc
  · rw [hs c hc.1 hc.2.1] at hc
    exact ⟨hsc c hc.1 hc.2.1 hc.2.2, ht c hc.1 hc.2.1⟩
  · rw [← h.card]
    congr 2
    ext c
    rw [mem_alive, mem_alive]
    constructor
    · rintro ⟨c0, cn, hc⟩
      rw [hs c c0 cn] at hc
      exact ⟨c0, cn, hc⟩
    · rintro ⟨c0, cn, hc⟩
      exact ⟨c0, cn, by rw [hs c c0 cn]; exact hc⟩

theorem kill (h : Removed n C k2) (hn : 0 ≤ n) {c : Int} (hc : AliveCol n C c) (h1 : (C' c).start = -1) (h2 : (C' c).score = k2 - 1) (h3 : (C' c).thickness = 1)
    (h4 : ∀ d, d ≠ c → C' d = C d) : Removed n C' (k2 - 1) := by
  have hk := h.pos hc
  have hkn := (h.le hn).2
  refine ⟨fun d d0 dn => ?_, fun d d0 dn => ?_, ⟨fun d hd => ?_, fun d e hd he hne => ?_⟩, ?_⟩
  · rcases eq_or_ne d c with rfl | hne
    · exact Or.inr h1
    · rw [h4 d hne]; exact h.kind d d0 dn
  · rcases eq_or_ne d c with rfl | hne
    · exact h3
    · rw [h4 d hne]; exact h.thick d d0 dn
  · rcases eq_or_ne d c with rfl | hne
    · right; omega
    · rw [h4 d hne] at hd ⊢
      have := h.placed.range d hd
      omega
  · rcases eq_or_ne d c with rfl | hdc
    · rw [h4 e hne.symm] at he ⊢
      have := h.placed.range e he
      have := h.thick e he.1 he.2.1
      omega
    · rcases eq_or_ne e c with rfl | hec
      · rw [h4 d hdc] at hd ⊢
        have := h.placed.range d hd
        have := h.thick d hd.1 hd.2.1
        omega
      · rw [h4 d hdc] at hd ⊢
        rw [h4 e hec] at he ⊢
        exact h.placed.disjoint d e hd he hne
  · have : alive n C' = (alive n C).erase c := by
      ext d
      rw [Finset.mem_erase, mem_alive, mem_alive]
      rcases eq_or_ne d c with rfl | hne
      · simp only [ne_eq, not_true, false_and, iff_false]
        intro q
        have := q.2.2
        omega
      · unfold AliveCol
        rw [h4 d hne]
        simp only [ne_eq, hne, not_false_iff, true_and]
    rw [this, Finset.card_erase_of_mem (mem_alive.2 hc)]
    have := h.card
    omega

end Removed

section
variable {m n nnz : Int} {R0 : Int → ColamdRow} {C0 : Int → ColamdCol} {A : Int → Int}

theorem Start.removed (h : Start m n nnz R0 C0 A) : Removed n C0 n := by
  refine ⟨fun c c0 cn => Or.inl (h.alive c c0 cn), h.thick, ⟨fun c hc => ?_, fun c d hc => ?_⟩, ?_⟩
  · have := h.alive c hc.1 hc.2.1
    have := hc.2.2
    omega
  · have := h.alive c hc.1 hc.2.1
    have := hc.2.2
    omega
  · have : Amd.alive n C0 = Finset.Ico 0 n := by
      ext c
      rw [mem_alive, Finset.mem_Ico]
      exact ⟨fun q => ⟨q.1, q.2.1⟩, fun q => ⟨q.1, q.2, h.alive c q.1 q.2⟩⟩
    rw [this, Int.card_Ico]
    have := h.pattern.cols0
    omega

/-- Columns that are in use are as they were. -/
def Unchanged (n : Int) (C0 C : Int → ColamdCol) : Prop := ∀ c, AliveCol n C c → C c = C0 c

theorem killEmpty_of (h : Start m n nnz R0 C0 A) (cols : Mem ColamdCol) (hC : cols.get = C0) (hn : n ≤ cols.size) :
    ∃ cols' k2, (span 0 n.toNat).reverse.foldlM killEmptyColumn (cols, n) = .ok (cols', k2) ∧ cols'.size = cols.size ∧ Removed n cols'.get k2 ∧ Unchanged n C0 cols'.get ∧
      ∀ r, colsOf n cols'.get A r = colsOf n C0 A r := by
  have hn0 := h.pattern.cols0
  obtain ⟨⟨cols', k2⟩, e, h1, h2, h3, h4, h5⟩ := foldlM_span_reverse (fun x (s : Mem ColamdCol × Int) => s.1.size = cols.size ∧ Removed n s.1.get s.2 ∧ Unchanged n C0 s.1.get ∧
      (∀ r, colsOf n s.1.get A r = colsOf n C0 A r) ∧ ∀ c, 0 ≤ c → c < x → s.1.get c = C0 c) killEmptyColumn n.toNat (cols, n)
      ⟨rfl, by rw [hC]; exact h.removed, fun c _ => by rw [hC], fun r => by rw [hC], fun c _ _ => by rw [hC]⟩ (by
    rintro x' _ xn ⟨cs, k⟩ ⟨i1, i2, i3, i4, i5⟩
    simp only at i1 i2 i3 i4 i5
    obtain ⟨x, hx⟩ : ∃ x : Int, x = x' := ⟨_, rfl⟩
    rw [← hx] at i5 ⊢
    have x0 : 0 ≤ x := by omega
    have ex := i5 x x0 (by omega)
    have hal : AliveCol n cs.get x := ⟨x0, by omega, by rw [ex]; exact h.alive x x0 (by omega)⟩
    unfold killEmptyColumn
    simp only
    rw [Mem.read_of x0 (by omega), ok_bind]
    by_cases hl : (cs.get x).length = 0
    · have hk1 := i2.pos hal
      have hk2 := (i2.le hn0).2
      have hsm := h.pattern.small
      rw [if_pos hl, i32_of (by omega) (by omega), ok_bind, Mem.write_of _ x0 (by omega), ok_bind]
      have hth := i2.thick x x0 (by omega)
      refine ⟨_, rfl, i1, i2.kill hn0 hal ?_ ?_ ?_ (fun d hd => by simp only; rw [Mem.put_get_ne _ _ hd]), fun c hc => ?_, fun r => ?_, fun c c0 cx => ?_⟩
      · simp only; rw [Mem.put_get_self]
      · simp only; rw [Mem.put_get_self]
      · simp only; rw [Mem.put_get_self]; exact hth
      · have hne : c ≠ x := fun q => by
          have := hc.2.2
          rw [q] at this
          simp only [Mem.put_get_self] at this
          omega
        unfold AliveCol at hc
        simp only at hc ⊢
        rw [Mem.put_get_ne _ _ hne] at hc ⊢
        exact i3 c hc
      · rw [← i4 r]
        ext c
        rw [mem_colsOf, mem_colsOf]
        unfold AliveCol InCol
        simp only
        rcases eq_or_ne c x with rfl | hne
        · rw [Mem.put_get_self, hl]
          simp only [has_zero, and_false]
        · rw [Mem.put_get_ne _ _ hne]
      · simp only
        rw [Mem.put_get_ne _ _ (by omega)]
        exact i5 c c0 (by omega)
    · rw [if_neg hl]
      exact ⟨_, rfl, i1, i2, i3, i4, fun c c0 cx => i5 c c0 (by omega)⟩)
  exact ⟨cols', k2, e, h1, h2, h3, h4⟩

theorem card_colsOf (hn : 0 ≤ n) {C : Int → ColamdCol} {r : Int} : ((colsOf n C A r).card : Int) ≤ n := by
  have h : (colsOf n C A r).card ≤ (Finset.Ico 0 n).card := Finset.card_le_card fun c hc => Finset.mem_Ico.2 ⟨(mem_colsOf.1 hc).1.1, (mem_colsOf.1 hc).1.2.1⟩
  rw [Int.card_Ico] at h
  omega

/-- The degrees of the rows of a column are lowered. -/
theorem lowerDegrees_of (a : Mem Int) (rows : Mem ColamdRow) (hm : m ≤ rows.size) {start len : Int} (h0 : 0 ≤ start) (hl : 0 ≤ len) (hs : start + len ≤ a.size)
    (he : ∀ i, start ≤ i → i < start + len → 0 ≤ a.get i ∧ a.get i < m) (hd : Distinct a.get start len)
    (hdg : ∀ r, 0 ≤ r → r < m → 0 ≤ (rows.get r).degree ∧ (rows.get r).degree < 2 ^ 31) :
    ∃ rows', (span start len.toNat).foldlM (lowerDegree a) rows = .ok rows' ∧ rows'.size = rows.size ∧
      ∀ r, rows'.get r = if Has a.get start len r then { rows.get r with degree := (rows.get r).degree - 1 } else rows.get r := by
  obtain ⟨rows', e, h1, h2⟩ := foldlM_span (fun x (s : Mem ColamdRow) => s.size = rows.size ∧
      ∀ r, s.get r = if Has a.get start (x - start) r then { rows.get r with degree := (rows.get r).degree - 1 } else rows.get r) (lowerDegree a) start (start + len) len.toNat (by omega)
    rows ⟨rfl, fun r => by rw [if_neg (by rw [sub_self]; exact has_zero)]⟩ (by
    rintro x x0 xn s ⟨i1, i2⟩
    obtain ⟨e1, e2⟩ := he x x0 xn
    unfold lowerDegree
    have hfresh : ¬ Has a.get start (x - start) (a.get x) := by
      rintro ⟨i, q1, q2, q3⟩
      exact hd i x q1 (by omega) (by omega) q3
    have hdx := hdg _ e1 e2
    have hsx := i2 (a.get x)
    rw [if_neg hfresh] at hsx
    rw [Mem.read_of (by omega) (by omega), ok_bind, Mem.read_of e1 (by omega), ok_bind, hsx, i32_of (by omega) (by omega), ok_bind, Mem.write_of _ e1 (by omega)]
    refine ⟨_, rfl, i1, fun r => ?_⟩
    rw [show x + 1 - start = (x - start) + 1 by omega, has_succ (by omega), show start + (x - start) = x by omega]
    rcases eq_or_ne r (a.get x) with rfl | hne
    · rw [Mem.put_get_self, if_pos (Or.inr rfl)]
    · rw [Mem.put_get_ne _ _ hne, i2]
      have hiff : (Has a.get start (x - start) r ∨ a.get x = r) ↔ Has a.get start (x - start) r :=
        ⟨fun q => q.resolve_right fun q => hne q.symm, Or.inl⟩
      simp only [hiff])
  rw [show start + len - start = len by omega] at h2
  exact ⟨rows', e, h1, h2⟩

theorem killDense_of (h : Start m n nnz R0 C0 A) (denseCol : Int) (a : Mem Int) (hA : a.get = A) (ha : nnz ≤ a.size) (rows : Mem ColamdRow) (hR : rows.get = R0) (hm : m ≤ rows.size)
    (cols : Mem ColamdCol) (hn : n ≤ cols.size) {k2 : Int} (hr : Removed n cols.get k2) (hu : Unchanged n C0 cols.get) (hc : ∀ r, colsOf n cols.get A r = colsOf n C0 A r) :
    ∃ rows' cols' k2', (span 0 n.toNat).reverse.foldlM (killDenseColumn denseCol a) (rows, cols, k2) = .ok (rows', cols', k2') ∧ rows'.size = rows.size ∧ cols'.size = cols.size ∧
      Removed n cols'.get k2' ∧ Unchanged n C0 cols'.get ∧
      ∀ r, 0 ≤ r → r < m → rows'.get r = { R0 r with degree := (colsOf n cols'.get A r).card } := by
  have hn0 := h.pattern.cols0
  have hsm := h.pattern.small
  obtain ⟨⟨rows', cols', k2'⟩, e, h1, h2, h3, h4, h5⟩ := foldlM_span_reverse (fun _ (s : Mem ColamdRow × Mem ColamdCol × Int) => s.1.size = rows.size ∧ s.2.1.size = cols.size ∧
      Removed n s.2.1.get s.2.2 ∧ Unchanged n C0 s.2.1.get ∧ ∀ r, 0 ≤ r → r < m → s.1.get r = { R0 r with degree := (colsOf n s.2.1.get A r).card })
      (killDenseColumn denseCol a) n.toNat (rows, cols, k2) ⟨rfl, rfl, hr, hu, fun r r0 rm => by
        simp only
        rw [hc, hR, ← h.degree r r0 rm]⟩ (by
    rintro x' _ xn ⟨rs, cs, k⟩ ⟨i1, i2, i3, i4, i5⟩
    simp only at i1 i2 i3 i4 i5
    obtain ⟨x, hx⟩ : ∃ x : Int, x = x' := ⟨_, rfl⟩
    rw [← hx]
    have x0 : 0 ≤ x := by omega
    unfold killDenseColumn
    simp only
    rw [Mem.read_of x0 (by omega), ok_bind]
    by_cases hl : 0 ≤ (cs.get x).start ∧ denseCol < (cs.get x).length
    · rw [if_pos hl]
      have hal : AliveCol n cs.get x := ⟨x0, by omega, hl.1⟩
      have ex := i4 x hal
      have hal0 : AliveCol n C0 x := ⟨x0, by omega, h.alive x x0 (by omega)⟩
      have hcl := h.pattern.colLen x hal0
      have hci := h.pattern.colInj x hal0
      rw [← ex] at hcl hci
      obtain ⟨rs', e1, e2, e3⟩ := lowerDegrees_of a rs (m := m) (by omega) hl.1 hcl.1 (by omega) (fun i q1 q2 => by
        rw [hA]
        rw [ex] at q1 q2
        have := h.pattern.entryRow hal0 q1 q2
        exact ⟨this.1, this.2.1⟩) (by rw [hA]; exact hci) (fun r r0 rm => by
        rw [i5 r r0 rm]
        have := card_colsOf hn0 (C := cs.get) (A := A) (r := r)
        simp only
        omega)
      have hk1 := i3.pos hal
      have hk2 := (i3.le hn0).2
      rw [i32_of (by omega) (by omega), ok_bind, e1, ok_bind, Mem.write_of _ x0 (by omega), ok_bind]
      have hth := i3.thick x x0 (by omega)
      refine ⟨_, rfl, by simp only; omega, i2, i3.kill hn0 hal ?_ ?_ ?_ (fun d hd => by simp only; rw [Mem.put_get_ne _ _ hd]), fun c hc => ?_, fun r r0 rm => ?_⟩
      · simp only; rw [Mem.put_get_self]
      · simp only; rw [Mem.put_get_self]
      · simp only; rw [Mem.put_get_self]; exact hth
      · have hne : c ≠ x := fun q => by
          have := hc.2.2
          rw [q] at this
          simp only [Mem.put_get_self] at this
          omega
        unfold AliveCol at hc
        simp only at hc ⊢
        rw [Mem.put_get_ne _ _ hne] at hc ⊢
        exact i4 c hc
      · simp only
        have hset : colsOf n (cs.put x { cs.get x with score := k - 1, start := -1 }).get A r = (colsOf n cs.get A r).erase x := by
          ext c
          rw [Finset.mem_erase, mem_colsOf, mem_colsOf]
          unfold AliveCol InCol
          rcases eq_or_ne c x with rfl | hne
          · rw [Mem.put_get_self]
            simp
          · rw [Mem.put_get_ne _ _ hne]
            simp [hne]
        rw [hset, e3, i5 r r0 rm]
        by_cases hin : Has a.get (cs.get x).start (cs.get x).length r
        · have hmem : x ∈ colsOf n cs.get A r := mem_colsOf.2 ⟨hal, by rw [← hA]; exact hin⟩
          rw [if_pos hin, Finset.card_erase_of_mem hmem]
          have : 0 < (colsOf n cs.get A r).card := Finset.card_pos.2 ⟨x, hmem⟩
          have e4 : (((colsOf n cs.get A r).card - 1 : Nat) : Int) = ((colsOf n cs.get A r).card : Int) - 1 := by omega
          rw [e4]
        · have hmem : x ∉ colsOf n cs.get A r := fun q => hin (by rw [hA]; exact (mem_colsOf.1 q).2)
          rw [if_neg hin, Finset.erase_eq_of_notMem hmem]
    · rw [if_neg hl]
      exact ⟨_, rfl, i1, i2, i3, i4, i5⟩)
  exact ⟨rows', cols', k2', e, h1, h2, h3, h4, h5⟩

theorem killDenseRows_of (hm0 : 0 ≤ m) (denseRow : Int) (rows : Mem ColamdRow) (hm : m ≤ rows.size) (nRow : Int) (hnr : m ≤ nRow ∧ nRow < 2 ^ 31) :
    ∃ rows' nRow2 maxDeg, (span 0 m.toNat).foldlM (killDenseRow denseRow) (rows, nRow, 0) = .ok (rows', nRow2, maxDeg) ∧ rows'.size = rows.size ∧ (0 ≤ maxDeg ∧ ∀ D, 0 ≤ D → (∀ r, 0 ≤ r → r < m → (rows.get r).degree ≤ D) → maxDeg ≤ D) ∧
      (0 ≤ nRow2 ∧ nRow2 ≤ nRow) ∧
      (∀ r, rows'.get r = { rows.get r with mark := (rows'.get r).mark }) ∧
      ∀ r, 0 ≤ r → r < m → (rows'.get r).mark = -1 ∨ ((rows'.get r).mark = (rows.get r).mark ∧ (rows.get r).degree ≤ maxDeg) := by
  obtain ⟨⟨rows', n2, md⟩, e, h1, h2, h2', h3, h4, h5⟩ := foldlM_span (fun x (s : Mem ColamdRow × Int × Int) => s.1.size = rows.size ∧
      (0 ≤ s.2.2 ∧ ∀ D, 0 ≤ D → (∀ r, 0 ≤ r → r < m → (rows.get r).degree ≤ D) → s.2.2 ≤ D) ∧ (nRow - x ≤ s.2.1 ∧ s.2.1 ≤ nRow) ∧
      (∀ r, s.1.get r = { rows.get r with mark := (s.1.get r).mark }) ∧
      (∀ r, 0 ≤ r → r < x → (s.1.get r).mark = -1 ∨ ((s.1.get r).mark = (rows.get r).mark ∧ (rows.get r).degree ≤ s.2.2)) ∧
      ∀ r, x ≤ r → s.1.get r = rows.get r)
      (killDenseRow denseRow) 0 m m.toNat (by omega) (rows, nRow, 0) ⟨rfl, ⟨le_refl _, fun D hD _ => hD⟩, ⟨by simp, le_refl _⟩, fun r => rfl, fun r _ _ => by omega, fun r _ => rfl⟩ (by
    rintro x x0 xn ⟨rs, k, md⟩ ⟨i1, i2, i2', i3, i4, i5⟩
    simp only at i1 i2 i2' i3 i4 i5
    have ex := i5 x (le_refl _)
    unfold killDenseRow
    simp only
    rw [Mem.read_of x0 (by omega), ok_bind]
    by_cases hl : denseRow < (rs.get x).degree ∨ (rs.get x).degree = 0
    · rw [if_pos hl, Mem.write_of _ x0 (by omega), ok_bind, i32_of (by omega) (by omega), ok_bind]
      refine ⟨_, rfl, i1, i2, ⟨by simp only; omega, by simp only; omega⟩, fun r => ?_, fun r r0 rx => ?_, fun r rx => ?_⟩
      · simp only
        rcases eq_or_ne r x with rfl | hne
        · rw [Mem.put_get_self, ex]
        · rw [Mem.put_get_ne _ _ hne]; exact i3 r
      · simp only
        rcases eq_or_ne r x with rfl | hne
        · rw [Mem.put_get_self]; exact Or.inl rfl
        · rw [Mem.put_get_ne _ _ hne]; exact i4 r r0 (by omega)
      · simp only
        rw [Mem.put_get_ne _ _ (by omega)]
        exact i5 r (by omega)
    · rw [if_neg hl]
      refine ⟨_, rfl, i1, ⟨?_, fun D hD hle => ?_⟩, ⟨by simp only; omega, i2'.2⟩, i3, fun r r0 rx => ?_, fun r rx => i5 r (by omega)⟩
      · have := i2.1
        simp only
        split <;> omega
      · have := i2.2 D hD hle
        have hx := hle x x0 xn
        simp only
        rw [ex]
        split <;> omega
      · simp only
        rcases eq_or_ne r x with rfl | hne
        · right
          rw [ex]
          refine ⟨rfl, ?_⟩
          split <;> omega
        · rcases i4 r r0 (by omega) with q | ⟨q1, q2⟩
          · exact Or.inl q
          · refine Or.inr ⟨q1, ?_⟩
            split <;> omega)
  simp only at h2'
  exact ⟨rows', n2, md, e, h1, h2, ⟨by omega, h2'.2⟩, h3, h4⟩

/-- The initial score of column `d`. -/
noncomputable def startScore (n : Int) (R : Int → ColamdRow) (C : Int → ColamdCol) (A : Int → Int) (d : Int) : Int :=
  min n (∑ r ∈ keptRows R C A d, ((R r).degree - 1))

/-- The entries of one column. -/
theorem scoreEntries_of {rows : Mem ColamdRow} (hm : m ≤ rows.size) (hn : 0 ≤ n) {C : Int → ColamdCol} (a : Mem Int) {d : Int} (hl : 0 ≤ (C d).length) (h0 : 0 ≤ (C d).start)
    (hs : (C d).start + (C d).length ≤ a.size) (he : ∀ i, (C d).start ≤ i → i < (C d).start + (C d).length → 0 ≤ a.get i ∧ a.get i < m)
    (hd : Distinct a.get (C d).start (C d).length) (ht : ∀ r ∈ keptRows rows.get C a.get d, 1 ≤ (rows.get r).degree ∧ (rows.get r).degree ≤ n)
    (hsn : 4 * n + 8 < 2 ^ 31) :
    ∃ a' p', (span (C d).start (C d).length.toNat).foldlM (scoreEntry n rows) (a, (C d).start, 0) =
      .ok (a', p', startScore n rows.get C a.get d) ∧ a'.size = a.size ∧ p' ≤ (C d).start + (C d).length ∧
      Holds a'.get (C d).start (p' - (C d).start) (keptRows rows.get C a.get d) ∧
      ∀ i, i < (C d).start ∨ p' ≤ i → a'.get i = a.get i := by
  set start := (C d).start with hstart
  set len := (C d).length with hlen
  let K : Int → Finset Int := fun x => ((Finset.Ico start x).image a.get).filter (fun r => 0 ≤ (rows.get r).mark)
  have hK : K (start + len) = keptRows rows.get C a.get d := rfl
  have hKsub : ∀ x, x ≤ start + len → K x ⊆ K (start + len) := fun x hx =>
    Finset.filter_subset_filter _ (Finset.image_subset_image (Finset.Ico_subset_Ico_right hx))
  obtain ⟨⟨a', p', sc⟩, h1, h2⟩ := foldlM_span (fun x (s : Mem Int × Int × Int) => s.1.size = a.size ∧ s.2.1 ≤ x ∧
      Holds s.1.get start (s.2.1 - start) (K x) ∧ s.2.2 = min n (∑ r ∈ K x, ((rows.get r).degree - 1)) ∧
      ∀ i, i < start ∨ s.2.1 ≤ i → s.1.get i = a.get i)
    (scoreEntry n rows) start (start + len) len.toNat (by omega) (a, start, 0) ⟨rfl, le_refl _, by
      simp only [K, Finset.Ico_self, Finset.image_empty, Finset.filter_empty, sub_self]
      exact Holds.empty _ _, by
      simp only [K, Finset.Ico_self, Finset.image_empty, Finset.filter_empty, Finset.sum_empty]
      omega, fun _ _ => rfl⟩ (by
    rintro x hx1 hx2 ⟨b, p, sc⟩ ⟨hb, hpx, hc, hsc, hk⟩
    simp only at hb hpx hc hk hsc
    have e : b.get x = a.get x := hk x (Or.inr hpx)
    obtain ⟨hr1, hr2⟩ := he x hx1 hx2
    have hp0 := hc.2.1
    have hI : Finset.Ico start (x + 1) = insert x (Finset.Ico start x) := by
      ext i; simp only [Finset.mem_Ico, Finset.mem_insert]; omega
    unfold scoreEntry
    simp only
    rw [Mem.read_of (by omega) (by omega), ok_bind, e, Mem.read_of hr1 (by omega), ok_bind]
    by_cases hlive : (rows.get (a.get x)).mark < 0
    · rw [if_pos hlive]
      have hset : K (x + 1) = K x := by
        simp only [K, hI, Finset.image_insert, Finset.filter_insert, if_neg (not_le.2 hlive)]
      refine ⟨_, rfl, hb, by simp only; omega, ?_, ?_, fun i hi => hk i hi⟩
      · rw [hset]; exact hc
      · rw [hset]; exact hsc
    · rw [if_neg hlive, Mem.write_of _ (by omega) (by omega), ok_bind]
      have hset : K (x + 1) = insert (a.get x) (K x) := by
        simp only [K, hI, Finset.image_insert, Finset.filter_insert, if_pos (not_lt.1 hlive)]
      have hnot : a.get x ∉ K x := by
        simp only [K, Finset.mem_filter, Finset.mem_image, Finset.mem_Ico, not_and, forall_exists_index, and_imp]
        intro i hi1 hi2 hi3
        exact absurd hi3 (hd i x hi1 hi2 hx2)
      have htag : 1 ≤ (rows.get (a.get x)).degree ∧ (rows.get (a.get x)).degree ≤ n := ht _ (by
        rw [← hK]
        exact hKsub (x + 1) (by omega) (by rw [hset]; exact Finset.mem_insert_self _ _))
      have hsum0 : 0 ≤ ∑ r ∈ K x, ((rows.get r).degree - 1) := Finset.sum_nonneg fun r hr => by
        have := (ht r (by rw [← hK]; exact hKsub x (by omega) hr)).1
        omega
      rw [i32_of (by omega) (by omega), ok_bind, i32_of (by omega) (by omega), ok_bind]
      refine ⟨_, rfl, hb, by simp only; omega, ?_, ?_, fun i hi => ?_⟩
      · rw [hset]
        simp only
        rw [show p + 1 - start = (p - start) + 1 by omega]
        refine hc.push hnot (fun i h1 h2 => ?_) ?_
        · rw [Mem.put_get_ne _ _ (by omega)]
        · rw [show start + (p - start) = p by omega, Mem.put_get_self]
      · rw [hset, Finset.sum_insert hnot]
        simp only
        rw [hsc]
        by_cases hlt : min n (∑ r ∈ K x, ((rows.get r).degree - 1)) + ((rows.get (a.get x)).degree - 1) < n
        · rw [if_pos hlt]; omega
        · rw [if_neg hlt]; omega
      · simp only
        simp only at hi
        rw [Mem.put_get_ne _ _ (by omega)]
        exact hk i (by omega))
  simp only at h2
  obtain ⟨g1, g2, g3, g4, g5⟩ := h2
  refine ⟨a', p', ?_, g1, g2, g3, g5⟩
  rw [h1, g4]
  rfl

theorem Start.restrict (h : Start m n nnz R0 C0 A) {C : Int → ColamdCol} (hu : Unchanged n C0 C) : Pattern m n nnz (2 * nnz) R0 C A := by
  have hal : ∀ c, AliveCol n C c → AliveCol n C0 c := fun c hc => ⟨hc.1, hc.2.1, h.alive c hc.1 hc.2.1⟩
  obtain ⟨p1, p2, p3, p4, psm, p5, p6, p7, p8, p9, p10, p11, p12, p13, p14⟩ := h.pattern
  refine ⟨p1, p2, p3, p4, psm, fun c hc => ?_, fun c d hc hd hlt => ?_, p7, p8, p9, fun c hc => ?_, p11, fun c hc r hr => ?_, p13, fun c r hc hr => ?_⟩
  · rw [hu c hc]; exact p5 c (hal c hc)
  · rw [hu c hc, hu d hd]; exact p6 c d (hal c hc) (hal d hd) hlt
  · rw [hu c hc]; exact p10 c (hal c hc)
  · unfold InCol at hr
    rw [hu c hc] at hr
    exact p12 c (hal c hc) r hr
  · rw [← p14 c r (hal c hc) hr]
    unfold InCol
    rw [hu c hc]

theorem keptRows_eq_of {R : Int → ColamdRow} {C : Int → ColamdCol} {A A' : Int → Int} {d : Int} (he : ∀ i, (C d).start ≤ i → i < (C d).start + (C d).length → A' i = A i) :
    keptRows R C A' d = keptRows R C A d := by
  ext r
  rw [mem_keptRows, mem_keptRows]
  unfold InCol
  rw [has_congr he]

/-- What the scoring does to the columns. -/
structure Scored (n : Int) (R : Int → ColamdRow) (C : Int → ColamdCol) (A : Int → Int) (C' : Int → ColamdCol) (A' : Int → Int) (k2 : Int) : Prop where
  removed : Removed n C' k2
  live : ∀ c, AliveCol n C' c ↔ AliveCol n C c ∧ keptRows R C A c ≠ ∅
  cols : ∀ c, AliveCol n C' c → C' c = { C c with length := (keptRows R C A c).card, score := startScore n R C A c }
  held : ∀ c, AliveCol n C' c → Holds A' (C c).start (keptRows R C A c).card (keptRows R C A c)
  afar : ∀ i, (∀ c, AliveCol n C c → i < (C c).start ∨ (C c).start + (keptRows R C A c).card ≤ i) → A' i = A i

theorem scoreColumns_of {R1 : Int → ColamdRow} {top pf k2 : Int} {C : Int → ColamdCol} (hP : Pattern m n top pf R1 C A) (a : Mem Int) (hA : a.get = A) (ha : top ≤ a.size)
    (rows : Mem ColamdRow) (hm : m ≤ rows.size) (cols : Mem ColamdCol) (hC : cols.get = C) (hn : n ≤ cols.size) (hr : Removed n C k2)
    (hdeg : ∀ c r, AliveCol n C c → InCol C A c r → 1 ≤ (rows.get r).degree ∧ (rows.get r).degree ≤ n) :
    ∃ cols' a' k2', (span 0 n.toNat).reverse.foldlM (scoreColumn n rows) (cols, a, k2) = .ok (cols', a', k2') ∧ cols'.size = cols.size ∧ a'.size = a.size ∧
      Scored n rows.get C A cols'.get a'.get k2' := by
  have hn0 := hP.cols0
  let K := keptRows rows.get C A
  obtain ⟨⟨cols', a', k2'⟩, e, h1, h2, h3, h4, h5, h6, h7, h8⟩ := foldlM_span_reverse (fun x (s : Mem ColamdCol × Mem Int × Int) => s.1.size = cols.size ∧ s.2.1.size = a.size ∧
      Removed n s.1.get s.2.2 ∧ (∀ c, 0 ≤ c → c < x → s.1.get c = C c) ∧
      (∀ c, x ≤ c → c < n → (0 ≤ (s.1.get c).start ↔ AliveCol n C c ∧ K c ≠ ∅)) ∧
      (∀ c, x ≤ c → c < n → 0 ≤ (s.1.get c).start → s.1.get c = { C c with length := (K c).card, score := startScore n rows.get C A c }) ∧
      (∀ c, x ≤ c → c < n → 0 ≤ (s.1.get c).start → Holds s.2.1.get (C c).start (K c).card (K c)) ∧
      ∀ i, (∀ c, x ≤ c → AliveCol n C c → i < (C c).start ∨ (C c).start + (K c).card ≤ i) → s.2.1.get i = A i)
      (scoreColumn n rows) n.toNat (cols, a, k2) ⟨rfl, rfl, by rw [hC]; exact hr, fun c _ _ => by rw [hC], fun c _ _ => by omega, fun c _ _ => by omega, fun c _ _ => by omega,
        fun i _ => by rw [hA]⟩ (by
    rintro x' _ xn ⟨cs, b, k⟩ ⟨i1, i2, i3, i4, i5, i6, i7, i8⟩
    simp only at i1 i2 i3 i4 i5 i6 i7 i8
    obtain ⟨x, hx⟩ : ∃ x : Int, x = x' := ⟨_, rfl⟩
    rw [← hx] at i4 i5 i6 i7 i8 ⊢
    have x0 : 0 ≤ x := by omega
    have ex := i4 x x0 (by omega)
    unfold scoreColumn
    simp only
    rw [Mem.read_of x0 (by omega), ok_bind, ex]
    by_cases hl : 0 ≤ (C x).start
    · rw [if_pos hl]
      have hal : AliveCol n C x := ⟨x0, by omega, hl⟩
      have hcl := hP.colLen x hal
      have hKc : ∀ c, AliveCol n C c → ((K c).card : Int) ≤ (C c).length := fun c hc => by
        have hh := holds_image (hP.colInj c hc) (hP.colLen c hc).1
        rw [hh.card]
        exact_mod_cast Finset.card_le_card (Finset.filter_subset _ _)
      have hbA : ∀ i, i < (C x).start + (C x).length → b.get i = A i := fun i hi => i8 i fun c hc hcal => Or.inl (by
        have := hP.colOrd x c hal hcal (by omega)
        omega)
      have hkeep : keptRows rows.get C b.get x = K x := keptRows_eq_of fun i _ hi => hbA i hi
      have hscore : startScore n rows.get C b.get x = startScore n rows.get C A x := by
        unfold startScore
        rw [hkeep]
      obtain ⟨b', p', e1, e2, e3, e4, e5⟩ := scoreEntries_of (m := m) hm hn0 (C := C) b (d := x) hcl.1 hl (by omega) (fun i q1 q2 => by
        rw [hbA i q2]
        have := hP.entryRow hal q1 q2
        exact ⟨this.1, this.2.1⟩) ((hP.colInj x hal).congr fun i _ hi => hbA i hi) (fun r hr => by
        rw [hkeep] at hr
        exact hdeg x r hal (mem_keptRows.1 hr).1) hP.small.2.1
      rw [hkeep] at e4
      rw [hscore] at e1
      have hp' := e4.card
      have hord : ∀ c, x + 1 ≤ c → AliveCol n C c → p' ≤ (C c).start := fun c hc hcal => by
        have := hP.colOrd x c hal hcal (by omega)
        omega
      have hheld : ∀ (D : ColamdCol) c, x + 1 ≤ c → c < n → 0 ≤ (cs.get c).start → Holds b'.get (C c).start (K c).card (K c) := fun _ c hc cn hs => by
        have hcal := ((i5 c hc cn).1 hs).1
        refine (i7 c hc cn hs).congr fun i q1 q2 => e5 i (Or.inr ?_)
        have := hord c hc hcal
        omega
      have hfar : ∀ i, (∀ c, x ≤ c → AliveCol n C c → i < (C c).start ∨ (C c).start + (K c).card ≤ i) → b'.get i = A i := fun i hi => by
        rw [e5 i]
        · exact i8 i fun c hc hcal => hi c (by omega) hcal
        · rcases hi x (le_refl _) hal with q | q
          · exact Or.inl q
          · exact Or.inr (by omega)
      have htf := hP.topFree
      have hsm := hP.small
      have hcl0 := Int.natCast_nonneg (K x).card
      rw [e1, ok_bind]
      simp only
      rw [i32_of (by omega) (by omega), ok_bind]
      by_cases hz : p' - (C x).start = 0
      · have hK0 : K x = ∅ := by
          rw [← Finset.card_eq_zero]
          omega
        have hal' : AliveCol n cs.get x := ⟨x0, by omega, by rw [ex]; exact hl⟩
        have hk1 := i3.pos hal'
        have hk2 := (i3.le hn0).2
        rw [if_pos hz, i32_of (by omega) (by omega), ok_bind, Mem.write_of _ x0 (by omega), ok_bind]
        have hth := i3.thick x x0 (by omega)
        rw [ex] at hth
        refine ⟨_, rfl, i1, by simp only; omega, i3.kill hn0 hal' ?_ ?_ ?_ (fun d hd => by simp only; rw [Mem.put_get_ne _ _ hd]), fun c c0 cx => ?_, fun c cx cn => ?_, fun c cx cn hs => ?_,
          fun c cx cn hs => ?_, hfar⟩
        · simp only; rw [Mem.put_get_self]
        · simp only; rw [Mem.put_get_self]
        · simp only; rw [Mem.put_get_self]; exact hth
        · simp only; rw [Mem.put_get_ne _ _ (by omega)]; exact i4 c c0 (by omega)
        · simp only
          rcases eq_or_ne c x with rfl | hne
          · rw [Mem.put_get_self]
            simp [hK0]
          · rw [Mem.put_get_ne _ _ hne]; exact i5 c (by omega) cn
        · simp only at hs ⊢
          rcases eq_or_ne c x with rfl | hne
          · rw [Mem.put_get_self] at hs
            simp at hs
          · rw [Mem.put_get_ne _ _ hne] at hs ⊢; exact i6 c (by omega) cn hs
        · simp only at hs ⊢
          rcases eq_or_ne c x with rfl | hne
          · rw [Mem.put_get_self] at hs
            simp at hs
          · rw [Mem.put_get_ne _ _ hne] at hs; exact hheld (C x) c (by omega) cn hs
      · have hK0 : K x ≠ ∅ := fun q => by
          rw [q, Finset.card_empty] at hp'
          omega
        rw [if_neg hz, Mem.write_of _ x0 (by omega), ok_bind]
        refine ⟨_, rfl, i1, by simp only; omega, i3.congr (fun c _ _ => ?_) (fun c _ _ => ?_) (fun c c0 cn hd => ?_), fun c c0 cx => ?_, fun c cx cn => ?_, fun c cx cn hs => ?_,
          fun c cx cn hs => ?_, hfar⟩
        · simp only
          rcases eq_or_ne c x with rfl | hne
          · rw [Mem.put_get_self, ex]
          · rw [Mem.put_get_ne _ _ hne]
        · simp only
          rcases eq_or_ne c x with rfl | hne
          · rw [Mem.put_get_self, ex]
          · rw [Mem.put_get_ne _ _ hne]
        · simp only
          rcases eq_or_ne c x with rfl | hne
          · rw [ex] at hd
            omega
          · rw [Mem.put_get_ne _ _ hne]
        · simp only; rw [Mem.put_get_ne _ _ (by omega)]; exact i4 c c0 (by omega)
        · simp only
          rcases eq_or_ne c x with rfl | hne
          · rw [Mem.put_get_self]
            exact ⟨fun _ => ⟨hal, hK0⟩, fun _ => hl⟩
          · rw [Mem.put_get_ne _ _ hne]; exact i5 c (by omega) cn
        · simp only at hs ⊢
          rcases eq_or_ne c x with rfl | hne
          · rw [Mem.put_get_self, hp']
          · rw [Mem.put_get_ne _ _ hne] at hs ⊢; exact i6 c (by omega) cn hs
        · simp only at hs ⊢
          rcases eq_or_ne c x with rfl | hne
          · rw [← hp']; exact e4
          · rw [Mem.put_get_ne _ _ hne] at hs; exact hheld (C x) c (by omega) cn hs
    · rw [if_neg hl]
      have hnal : ¬ AliveCol n C x := fun q => hl q.2.2
      refine ⟨_, rfl, i1, i2, i3, fun c c0 cx => i4 c c0 (by omega), fun c cx cn => ?_, fun c cx cn hs => ?_, fun c cx cn hs => ?_, fun i hi => i8 i fun c hc hcal => hi c (by omega) hcal⟩
      · simp only
        rcases eq_or_ne c x with rfl | hne
        · rw [ex]
          exact ⟨fun q => absurd q hl, fun q => absurd q.1 hnal⟩
        · exact i5 c (by omega) cn
      · simp only at hs ⊢
        rcases eq_or_ne c x with rfl | hne
        · rw [ex] at hs; exact absurd hs hl
        · exact i6 c (by omega) cn hs
      · simp only at hs ⊢
        rcases eq_or_ne c x with rfl | hne
        · rw [ex] at hs; exact absurd hs hl
        · exact i7 c (by omega) cn hs)
  refine ⟨cols', a', k2', e, h1, h2, h3, fun c => ⟨fun hc => (h5 c hc.1 hc.2.1).1 hc.2.2, fun hc => ⟨hc.1.1, hc.1.2.1, (h5 c hc.1.1 hc.1.2.1).2 hc⟩⟩, fun c hc => h6 c hc.1 hc.2.1 hc.2.2,
    fun c hc => h7 c hc.1 hc.2.1 hc.2.2, fun i hi => h8 i fun c _ hc => hi c hc⟩

end
end Fiksi.Amd
