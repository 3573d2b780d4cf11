import Verif.Proofs.AmdBase
/-!
# Garbage collection

All columns in use are kept, in order and with the same entries; the rows in use are kept without their dead columns.
-/
namespace Fiksi.Amd
open Classical

/-- Filtered sets grow with the bound. -/
theorem filter_lt_succ (S : Finset Int) (x : Int) :
    S.filter (· < x + 1) = if x ∈ S then insert x (S.filter (· < x)) else S.filter (· < x) := by
  ext c
  by_cases hx : x ∈ S <;> simp only [hx, if_true, if_false, Finset.mem_insert, Finset.mem_filter]
  · constructor
    · rintro ⟨h1, h2⟩
      rcases eq_or_ne c x with rfl | hne
      · exact Or.inl rfl
      · exact Or.inr ⟨h1, by omega⟩
    · rintro (rfl | ⟨h1, h2⟩)
      · exact ⟨hx, by omega⟩
      · exact ⟨h1, by omega⟩
  · constructor
    · rintro ⟨h1, h2⟩
      refine ⟨h1, ?_⟩
      have : c ≠ x := fun h => hx (h ▸ h1)
      omega
    · rintro ⟨h1, h2⟩
      exact ⟨h1, by omega⟩

/-- The entries of one column. -/
theorem moveColumnEntries_of {m : Int} {rows : Mem ColamdRow} (hm : m ≤ rows.size) (a : Mem Int) {start len pdest : Int} (hl : 0 ≤ len) (h0 : 0 ≤ pdest)
    (hp : pdest ≤ start) (hs : start + len ≤ a.size) (he : ∀ i, start ≤ i → i < start + len → AliveRow m rows.get (a.get i)) :
    ∃ a', (span start len.toNat).foldlM (moveColumnEntry rows) (a, pdest) = .ok (a', pdest + len) ∧ a'.size = a.size ∧
      (∀ j, 0 ≤ j → j < len → a'.get (pdest + j) = a.get (start + j)) ∧ ∀ i, i < pdest ∨ pdest + len ≤ i → a'.get i = a.get i := by
  obtain ⟨s', h1, h2⟩ := foldlM_span (fun x (s : Mem Int × Int) => s.2 = pdest + (x - start) ∧ s.1.size = a.size ∧
      (∀ j, 0 ≤ j → j < x - start → s.1.get (pdest + j) = a.get (start + j)) ∧ ∀ i, i < pdest ∨ pdest + (x - start) ≤ i → s.1.get i = a.get i)
    (moveColumnEntry rows) start (start + len) len.toNat (by omega) (a, pdest) ⟨by simp, rfl, fun j h1 h2 => by omega, fun _ _ => rfl⟩ (by
    rintro x hx1 hx2 ⟨b, p⟩ ⟨rfl, hb, hc, hk⟩
    simp only at hb hc hk
    have e : b.get x = a.get x := hk x (Or.inr (by omega))
    obtain ⟨hr1, hr2, hr3⟩ := he x hx1 hx2
    unfold moveColumnEntry
    simp only
    rw [Mem.read_of (by omega) (by omega), ok_bind, e, Mem.read_of hr1 (by omega), ok_bind, if_pos hr3, Mem.write_of _ (by omega) (by omega), ok_bind]
    refine ⟨_, rfl, by simp only; ring, hb, fun j hj1 hj2 => ?_, fun i hi => ?_⟩
    · rcases eq_or_ne j (x - start) with rfl | hne
      · rw [Mem.put_get_self]
        congr 1
        omega
      · rw [Mem.put_get_ne _ _ (by omega)]
        exact hc j hj1 (by omega)
    · rw [Mem.put_get_ne _ _ (by omega)]
      exact hk i (by omega))
  obtain ⟨a', p⟩ := s'
  simp only at h2
  obtain ⟨rfl, h3, h4, h5⟩ := h2
  have hlen : start + len - start = len := by omega
  rw [hlen] at h1 h4 h5
  exact ⟨a', h1, h3, h4, h5⟩

section
variable {m n top pfree : Int} {R : Int → ColamdRow} {C : Int → ColamdCol} {A : Int → Int}

/-- Columns below `x` have been moved. -/
structure MoveColInv (n top pfree : Int) (C : Int → ColamdCol) (A : Int → Int) (csize asize : Nat) (x : Int) (s : Mem ColamdCol × Mem Int × Int) : Prop where
  csize : s.1.size = csize
  asize : s.2.1.size = asize
  rest : ∀ c, x ≤ c → s.1.get c = C c
  dead : ∀ c, ¬ AliveCol n C c → s.1.get c = C c
  moved : ∀ c, AliveCol n C c → c < x → s.1.get c = { C c with start := (s.1.get c).start } ∧ 0 ≤ (s.1.get c).start ∧
    (s.1.get c).start + (C c).length ≤ s.2.2 ∧ ∀ j, 0 ≤ j → j < (C c).length → s.2.1.get ((s.1.get c).start + j) = A ((C c).start + j)
  ord : ∀ c d, AliveCol n C c → AliveCol n C d → c < d → d < x → (s.1.get c).start + (C c).length ≤ (s.1.get d).start
  pd : 0 ≤ s.2.2 ∧ s.2.2 ≤ top ∧ ∀ d, AliveCol n C d → x ≤ d → s.2.2 ≤ (C d).start
  sum : s.2.2 = ∑ c ∈ (alive n C).filter (· < x), (C c).length
  keep : ∀ i, s.2.2 ≤ i → s.2.1.get i = A i
  cells : ∀ i, 0 ≤ i → i < pfree → 0 ≤ s.2.1.get i

theorem moveColumns_of (h : Pattern m n top pfree R C A) (b : ColamdBuffers) (hR : b.rows.get = R) (hC : b.cols.get = C) (hA : b.a.get = A)
    (hm : m ≤ b.rows.size) (hn : n ≤ b.cols.size) (ha : pfree ≤ b.a.size) :
    ∃ s, (span 0 n.toNat).foldlM (moveColumn b.rows) (b.cols, b.a, 0) = .ok s ∧ MoveColInv n top pfree C A b.cols.size b.a.size n s := by
  have hn0 := h.cols0
  refine foldlM_span (MoveColInv n top pfree C A b.cols.size b.a.size) _ 0 n n.toNat (by omega) _ ?_ ?_
  · refine ⟨rfl, rfl, fun c _ => by rw [← hC], fun c _ => by rw [← hC], fun c hc hx => ?_, fun c d hc _ h1 h2 => ?_, ⟨le_refl _, h.top0, fun d hd _ => hd.2.2⟩, ?_,
      fun i _ => by rw [← hA], fun i h0 h1 => by simp only; rw [hA]; exact h.cells i h0 h1⟩
    · have := hc.1; omega
    · have := hc.1; omega
    · rw [Finset.filter_false_of_mem, Finset.sum_empty]
      intro c hc
      have := (mem_alive.1 hc).1
      omega
  · rintro x hx0 hx1 ⟨cols, a, p⟩ inv
    obtain ⟨i1, i2, i3, i4, i5, i6, ⟨p0, pt, pd⟩, i7, i8, i9⟩ := inv
    simp only at i1 i2 i3 i4 i5 i6 p0 pt pd i7 i8 i9
    unfold moveColumn
    simp only
    rw [Mem.read_of hx0 (by omega), ok_bind, i3 x (le_refl _)]
    by_cases hs : 0 ≤ (C x).start
    · have hx : AliveCol n C x := ⟨hx0, hx1, hs⟩
      obtain ⟨hl0, hlt⟩ := h.colLen x hx
      have htf := h.topFree
      have hp := pd x hx (le_refl _)
      obtain ⟨a', e1, e2, e3, e4⟩ := moveColumnEntries_of (rows := b.rows) hm a hl0 p0 hp (by omega) (fun i h1 h2 => by
        rw [i8 i (by omega), hR]
        exact h.entryRow hx h1 h2)
      obtain ⟨_, _, hsf⟩ := h.small
      rw [if_pos hs, i32_of (by omega) (by omega), ok_bind, e1, ok_bind, i32_of (by omega) (by omega), ok_bind, Mem.write_of _ hx0 (by omega), ok_bind]
      have hlen : p + (C x).length - p = (C x).length := by omega
      refine ⟨_, rfl, i1, by rw [← i2]; exact e2, fun c hc => ?_, fun c hc => ?_, fun c hc hcx => ?_, fun c d hc hd h1 h2 => ?_, ⟨?_, ?_, fun d hd hdx => ?_⟩, ?_,
        fun i hi => ?_, fun i h1 h2 => ?_⟩
      · simp only
        rw [Mem.put_get_ne _ _ (by omega)]
        exact i3 c (by omega)
      · simp only
        rw [Mem.put_get_ne _ _ (fun he => hc (by rw [he]; exact hx))]
        exact i4 c hc
      · simp only
        rcases eq_or_ne c x with rfl | hne
        · simp only [Mem.put_get_self, hlen]
          refine ⟨trivial, p0, le_refl _, fun j h1 h2 => ?_⟩
          rw [e3 j h1 h2]
          exact i8 _ (by omega)
        · rw [Mem.put_get_ne _ _ hne]
          obtain ⟨g1, g2, g3, g4⟩ := i5 c hc (by omega)
          refine ⟨g1, g2, by omega, fun j h1 h2 => ?_⟩
          rw [e4 _ (Or.inl (by omega))]
          exact g4 j h1 h2
      · simp only
        rw [Mem.put_get_ne _ _ (show c ≠ x by omega)]
        rcases eq_or_ne d x with rfl | hne
        · rw [Mem.put_get_self]
          exact (i5 c hc h1).2.2.1
        · rw [Mem.put_get_ne _ _ hne]
          exact i6 c d hc hd h1 (by omega)
      · simp only; omega
      · simp only; omega
      · have := h.colOrd x d hx hd (by omega)
        simp only
        omega
      · simp only
        rw [filter_lt_succ, if_pos (mem_alive.2 hx), Finset.sum_insert (by simp), i7]
        ring
      · simp only
        rw [e4 i (Or.inr hi)]
        simp only at hi
        exact i8 i (by omega)
      · simp only
        by_cases hi : i < p ∨ p + (C x).length ≤ i
        · rw [e4 i hi]
          exact i9 i h1 h2
        · have := e3 (i - p) (by omega) (by omega)
          rw [show p + (i - p) = i by omega] at this
          rw [this]
          exact i9 _ (by omega) (by omega)
    · rw [if_neg hs]
      have hx : ¬ AliveCol n C x := fun h => hs h.2.2
      refine ⟨_, rfl, i1, i2, fun c hc => i3 c (by omega), i4, fun c hc hcx => ?_, fun c d hc hd h1 h2 => ?_, ⟨p0, pt, fun d hd hdx => pd d hd (by omega)⟩, ?_, i8, i9⟩
      · exact i5 c hc (by rcases eq_or_ne c x with rfl | hne
                          · exact absurd hc hx
                          · omega)
      · exact i6 c d hc hd h1 (by rcases eq_or_ne d x with rfl | hne
                                  · exact absurd hd hx
                                  · omega)
      · simp only
        rw [filter_lt_succ, if_neg (fun hm => hx (mem_alive.1 hm)), i7]

/-- Row `r` is in use and not empty. -/
def FullRow (m : Int) (R : Int → ColamdRow) (r : Int) : Prop := AliveRow m R r ∧ (R r).length ≠ 0

/-- The starts of rows below `x` have been marked. -/
structure MarkInv (m : Int) (R : Int → ColamdRow) (A1 : Int → Int) (rsize asize : Nat) (x : Int) (s : Mem ColamdRow × Mem Int) : Prop where
  rsize : s.1.size = rsize
  asize : s.2.size = asize
  rest : ∀ r, x ≤ r → s.1.get r = R r
  full : ∀ r, FullRow m R r → r < x → s.1.get r = { R r with mark := A1 (R r).start } ∧ s.2.get (R r).start = -r - 1
  dead : ∀ r, 0 ≤ r → r < x → ¬ FullRow m R r → s.1.get r = { R r with mark := -1 }
  keep : ∀ i, (∀ r, FullRow m R r → r < x → (R r).start ≠ i) → s.2.get i = A1 i

theorem full_start_ne (h : Pattern m n top pfree R C A) {r s : Int} (hr : FullRow m R r) (hs : FullRow m R s) (hne : r ≠ s) :
    (R r).start ≠ (R s).start := by
  obtain ⟨_, h1, _⟩ := h.rowLen r hr.1
  obtain ⟨_, h2, _⟩ := h.rowLen s hs.1
  have := hr.2
  have := hs.2
  rcases h.rowDisj r s hr.1 hs.1 hne with h3 | h3 <;> omega

theorem markRows_of (h : Pattern m n top pfree R C A) (rows : Mem ColamdRow) (hR : rows.get = R) (a : Mem Int)
    (hm : m ≤ rows.size) (ha : pfree ≤ a.size) :
    ∃ s, (span 0 m.toNat).foldlM markRowStart (rows, a) = .ok s ∧ MarkInv m R a.get rows.size a.size m s := by
  have hm0 := h.rows0
  have ht0 := h.top0
  refine foldlM_span (MarkInv m R a.get rows.size a.size) _ 0 m m.toNat (by omega) _ ?_ ?_
  · refine ⟨rfl, rfl, fun r _ => by rw [← hR], fun r hr hx => ?_, fun r h1 h2 _ => by omega, fun i _ => rfl⟩
    have := hr.1.1; omega
  · rintro x hx0 hx1 ⟨rs, a'⟩ inv
    obtain ⟨i1, i2, i3, i4, i5, i6⟩ := inv
    simp only at i1 i2 i3 i4 i5 i6
    unfold markRowStart
    simp only
    rw [Mem.read_of hx0 (by omega), ok_bind, i3 x (le_refl _)]
    by_cases hs : (R x).mark < 0 ∨ (R x).length = 0
    · have hx : ¬ FullRow m R x := fun hf => by
        have := hf.1.2.2
        have := hf.2
        omega
      rw [if_pos hs, Mem.write_of _ hx0 (by omega), ok_bind]
      refine ⟨_, rfl, i1, i2, fun r hr => ?_, fun r hr hrx => ?_, fun r h0 h1 h2 => ?_, fun i hi => ?_⟩
      · simp only
        rw [Mem.put_get_ne _ _ (by omega)]
        exact i3 r (by omega)
      · have hne : r ≠ x := fun he => hx (he ▸ hr)
        simp only
        rw [Mem.put_get_ne _ _ hne]
        exact i4 r hr (by omega)
      · simp only
        rcases eq_or_ne r x with rfl | hne
        · rw [Mem.put_get_self]
        · rw [Mem.put_get_ne _ _ hne]
          exact i5 r h0 (by omega) h2
      · exact i6 i (fun r hr hrx => hi r hr (by omega))
    · have hx : FullRow m R x := ⟨⟨hx0, hx1, by omega⟩, by omega⟩
      obtain ⟨g1, g2, g3⟩ := h.rowLen x hx.1
      have gl := hx.2
      obtain ⟨hsm, _, _⟩ := h.small
      have e : a'.get (R x).start = a.get (R x).start := i6 _ (fun r hr hrx => full_start_ne h hr hx (by omega))
      rw [if_neg hs, Mem.read_of (by omega) (by omega), ok_bind, Mem.write_of _ hx0 (by omega), ok_bind, i32_of (by omega) (by omega), ok_bind,
        i32_of (by omega) (by omega), ok_bind, Mem.write_of _ (by omega) (by omega), ok_bind, e]
      refine ⟨_, rfl, i1, i2, fun r hr => ?_, fun r hr hrx => ?_, fun r h0 h1 h2 => ?_, fun i hi => ?_⟩
      · simp only
        rw [Mem.put_get_ne _ _ (by omega)]
        exact i3 r (by omega)
      · simp only
        rcases eq_or_ne r x with rfl | hne
        · simp only [Mem.put_get_self, and_self]
        · rw [Mem.put_get_ne _ _ hne, Mem.put_get_ne _ _ (full_start_ne h hr hx hne)]
          exact i4 r hr (by omega)
      · have hne : r ≠ x := fun he => h2 (he ▸ hx)
        simp only
        rw [Mem.put_get_ne _ _ hne]
        exact i5 r h0 (by omega) h2
      · simp only
        rw [Mem.put_get_ne _ _ (fun he => hi x hx (by omega) he.symm)]
        exact i6 i (fun r hr hrx => hi r hr (by omega))

/-- The columns in use among the first entries of a row. -/
noncomputable def liveCols (C : Int → ColamdCol) (A : Int → Int) (start stop : Int) : Finset Int :=
  ((Finset.Ico start stop).image A).filter (fun c => 0 ≤ (C c).start)

/-- The entries of one row. -/
theorem moveRowEntries_of {cols : Mem ColamdCol} (hn : n ≤ cols.size) (a : Mem Int) {start len pdest : Int} (hl : 0 ≤ len) (h0 : 0 ≤ pdest)
    (hp : pdest ≤ start) (hs : start + len ≤ a.size) (he : ∀ i, start ≤ i → i < start + len → 0 ≤ a.get i ∧ a.get i < n)
    (hd : Distinct a.get start len) :
    ∃ a' p', (span start len.toNat).foldlM (moveRowEntry cols) (a, pdest) = .ok (a', p') ∧ a'.size = a.size ∧ p' ≤ start + len ∧
      Holds a'.get pdest (p' - pdest) (liveCols cols.get a.get start (start + len)) ∧ ∀ i, i < pdest ∨ start + len ≤ i → a'.get i = a.get i := by
  obtain ⟨s', h1, h2⟩ := foldlM_span (fun x (s : Mem Int × Int) => s.1.size = a.size ∧ s.2 ≤ x ∧
      Holds s.1.get pdest (s.2 - pdest) (liveCols cols.get a.get start x) ∧ ∀ i, i < pdest ∨ x ≤ i → s.1.get i = a.get i)
    (moveRowEntry cols) start (start + len) len.toNat (by omega) (a, pdest) ⟨rfl, hp, by
      simp only [liveCols, Finset.Ico_self, Finset.image_empty, Finset.filter_empty, sub_self]
      exact Holds.empty _ _, fun _ _ => rfl⟩ (by
    rintro x hx1 hx2 ⟨b, p⟩ ⟨hb, hpx, hc, hk⟩
    simp only at hb hpx hc hk
    have e : b.get x = a.get x := hk x (Or.inr (le_refl _))
    obtain ⟨hr1, hr2⟩ := he x hx1 hx2
    have hp0 := hc.2.1
    have hI : Finset.Ico start (x + 1) = insert x (Finset.Ico start x) := by
      ext i; simp only [Finset.mem_Ico, Finset.mem_insert]; omega
    unfold moveRowEntry
    simp only
    rw [Mem.read_of (by omega) (by omega), ok_bind, e, Mem.read_of hr1 (by omega), ok_bind]
    by_cases hlive : 0 ≤ (cols.get (a.get x)).start
    · rw [if_pos hlive, Mem.write_of _ (by omega) (by omega), ok_bind]
      refine ⟨_, rfl, hb, by simp only; omega, ?_, fun i hi => ?_⟩
      · have hset : liveCols cols.get a.get start (x + 1) = insert (a.get x) (liveCols cols.get a.get start x) := by
          simp only [liveCols, hI, Finset.image_insert, Finset.filter_insert, hlive, if_true]
        simp only
        rw [hset, show p + 1 - pdest = (p - pdest) + 1 by omega]
        refine hc.push ?_ (fun i h1 h2 => ?_) ?_
        · simp only [liveCols, Finset.mem_filter, Finset.mem_image, Finset.mem_Ico, not_and, forall_exists_index, and_imp]
          intro i hi1 hi2 hi3
          exact absurd hi3 (hd i x hi1 hi2 hx2)
        · rw [Mem.put_get_ne _ _ (by omega)]
        · rw [show pdest + (p - pdest) = p by omega, Mem.put_get_self]
      · simp only
        rw [Mem.put_get_ne _ _ (by omega)]
        exact hk i (by omega)
    · rw [if_neg hlive]
      refine ⟨_, rfl, hb, by simp only; omega, ?_, fun i hi => hk i (by omega)⟩
      simp only [liveCols, hI, Finset.image_insert, Finset.filter_insert, hlive, if_false] at hc ⊢
      exact hc)
  obtain ⟨a', p⟩ := s'
  simp only at h2
  exact ⟨a', p, h1, h2⟩

/-- The rows with entries before `psrc` have been moved. `T` is the end of the columns, `A2` the array with the marked starts. -/
structure MoveRowsInv (m pfree T : Int) (R : Int → ColamdRow) (C' : Int → ColamdCol) (A A2 : Int → Int) (rsize asize : Nat)
    (rows : Mem ColamdRow) (a : Mem Int) (pdest psrc : Int) : Prop where
  rsize : rows.size = rsize
  asize : a.size = asize
  bounds : T ≤ pdest ∧ pdest ≤ psrc ∧ psrc ≤ pfree
  later : ∀ i, psrc ≤ i → a.get i = A2 i
  low : ∀ i, i < T → a.get i = A2 i
  sep : ∀ r, FullRow m R r → psrc ≤ (R r).start ∨ (R r).start + (R r).length ≤ psrc
  todo : ∀ r, FullRow m R r → psrc ≤ (R r).start → rows.get r = { R r with mark := A (R r).start }
  done : ∀ r, FullRow m R r → (R r).start < psrc →
    rows.get r = { R r with mark := A (R r).start, start := (rows.get r).start, length := (rows.get r).length } ∧
    T ≤ (rows.get r).start ∧ (rows.get r).start + (rows.get r).length ≤ pdest ∧
    Holds a.get (rows.get r).start (rows.get r).length (liveCols C' A (R r).start ((R r).start + (R r).length))
  disj : ∀ r s, FullRow m R r → FullRow m R s → r ≠ s → (R r).start < psrc → (R s).start < psrc →
    (rows.get r).start + (rows.get r).length ≤ (rows.get s).start ∨ (rows.get s).start + (rows.get s).length ≤ (rows.get r).start
  dead : ∀ r, 0 ≤ r → r < m → ¬ FullRow m R r → rows.get r = { R r with mark := -1 }
  cells : ∀ i, 0 ≤ i → i < pdest → 0 ≤ a.get i
  sum : pdest = T + ∑ r ∈ (Finset.Ico 0 m).filter (fun r => FullRow m R r ∧ (R r).start < psrc),
    ((liveCols C' A (R r).start ((R r).start + (R r).length)).card : Int)

theorem mem_liveCols {C' : Int → ColamdCol} {start stop c : Int} :
    c ∈ liveCols C' A start stop ↔ (∃ i, start ≤ i ∧ i < stop ∧ A i = c) ∧ 0 ≤ (C' c).start := by
  simp only [liveCols, Finset.mem_filter, Finset.mem_image, Finset.mem_Ico, and_assoc]

theorem moveRows_of (h : Pattern m n top pfree R C A) (hsf : pfree < 2 ^ 31) (cols : Mem ColamdCol) (hn : n ≤ cols.size) {T : Int} (hT0 : 0 ≤ T) (hT : T ≤ top) {A2 : Int → Int}
    (hA2 : ∀ r, FullRow m R r → A2 (R r).start = -r - 1)
    (hA3 : ∀ i, T ≤ i → (∀ r, FullRow m R r → (R r).start ≠ i) → A2 i = A i) {rsize asize : Nat} (hm : m ≤ rsize) (ha : pfree ≤ asize)
    (fuel : Nat) (rows : Mem ColamdRow) (a : Mem Int) (pdest psrc : Int) (hf : pfree - psrc < fuel)
    (inv : MoveRowsInv m pfree T R cols.get A A2 rsize asize rows a pdest psrc) :
    ∃ rows' a' p', moveRows cols pfree fuel rows a pdest psrc = .ok (rows', a', p') ∧
      MoveRowsInv m pfree T R cols.get A A2 rsize asize rows' a' p' pfree := by
  have htop0 := h.top0
  induction fuel generalizing rows a pdest psrc with
  | zero => have := inv.bounds; omega
  | succ fuel ih =>
    obtain ⟨j1, j2, ⟨j3, j4, j5⟩, j6, j7, j8, j9, j10, j11, j12, j13, j14⟩ := inv
    unfold moveRows
    by_cases hp : psrc < pfree
    · rw [if_pos hp, Mem.read_of (by omega) (by omega), ok_bind, j6 psrc (le_refl _)]
      by_cases hex : ∃ r, FullRow m R r ∧ (R r).start = psrc
      · obtain ⟨r, hr, hrs⟩ := hex
        obtain ⟨g1, g2, g3⟩ := h.rowLen r hr.1
        have gl := hr.2
        have hv : A2 psrc = -r - 1 := by rw [← hrs]; exact hA2 r hr
        have hr0 := hr.1.1
        have hrm := hr.1.2.1
        have hnr : -(-r - 1) - 1 = r := by omega
        have hrow := j9 r hr (by omega)
        have hother : ∀ s, FullRow m R s → s ≠ r → psrc ≤ (R s).start → psrc + (R r).length ≤ (R s).start := by
          intro s hs hne hss
          obtain ⟨_, q2, _⟩ := h.rowLen s hs.1
          have := hs.2
          rcases h.rowDisj r s hr.1 hs.1 hne.symm with q | q <;> omega
        have hcell : ∀ i, psrc ≤ i → i < psrc + (R r).length → (a.put psrc (A (R r).start)).get i = A i := by
          intro i hi1 hi2
          rcases eq_or_ne i psrc with rfl | hne
          · rw [Mem.put_get_self, hrs]
          · rw [Mem.put_get_ne _ _ hne, j6 i hi1]
            refine hA3 i (by omega) (fun s hs he => ?_)
            rcases eq_or_ne s r with rfl | hne'
            · omega
            · have := hother s hs hne' (by omega)
              omega
        have hsm := h.small.1
        rw [hv, if_pos (by omega), i32_of (by omega) (by omega), ok_bind, i32_of (by omega) (by omega), ok_bind]
        simp only [hnr]
        rw [Mem.read_of hr0 (by omega), ok_bind, hrow, Mem.write_of _ (by omega) (by omega), ok_bind, i32_of (by omega) (by omega), ok_bind]
        simp only
        obtain ⟨a', p', e1, e2, e3, e4, e5⟩ := moveRowEntries_of (n := n) hn (a.put psrc (A (R r).start)) (start := psrc) (len := (R r).length) (pdest := pdest)
          g2 (by omega) j4 (by rw [Mem.put_size]; omega) (fun i h1 h2 => by
            rw [hcell i h1 h2]
            exact h.entryCol hr.1 (by omega) (by omega)) ((hrs ▸ h.rowInj r hr.1).congr (fun i h1 h2 => hcell i h1 h2))
        have e41 := e4.2.1
        rw [e1, ok_bind]
        simp only
        rw [i32_of (by omega) (by omega), ok_bind, Mem.write_of _ hr0 (by omega), ok_bind]
        have hlive : liveCols cols.get (a.put psrc (A (R r).start)).get psrc (psrc + (R r).length) =
            liveCols cols.get A (R r).start ((R r).start + (R r).length) := by
          ext c
          rw [mem_liveCols, mem_liveCols]
          refine and_congr_left fun _ => exists_congr fun i => ?_
          constructor
          · rintro ⟨h1, h2, h3⟩; exact ⟨by omega, by omega, by rw [← hcell i h1 h2]; exact h3⟩
          · rintro ⟨h1, h2, h3⟩; exact ⟨by omega, by omega, by rw [hcell i (by omega) (by omega)]; exact h3⟩
        rw [hlive] at e4
        rw [Mem.put_size] at e2
        have e40 := e4.2.1
        have hcast : ((R r).length.toNat : Int) = (R r).length := by omega
        rw [hcast]
        have hput : ∀ i, i < pdest → a'.get i = a.get i := fun i hi => by
          rw [e5 i (Or.inl hi), Mem.put_get_ne _ _ (by omega)]
        refine ih _ a' p' (psrc + (R r).length) (by omega) ⟨j1, by omega, ⟨by omega, e3, by omega⟩, fun i hi => ?_, fun i hi => ?_, fun s hs => ?_, fun s hs hss => ?_,
          fun s hs hss => ?_, fun s t hs ht hst hss hts => ?_, fun s h0 h1 hs => ?_, fun i h0 h1 => ?_, ?_⟩
        · rw [e5 i (Or.inr hi), Mem.put_get_ne _ _ (by omega)]
          exact j6 i (by omega)
        · rw [hput i (by omega)]
          exact j7 i hi
        · rcases eq_or_ne s r with rfl | hne
          · right; omega
          · rcases j8 s hs with q | q
            · exact Or.inl (hother s hs hne q)
            · right; omega
        · have hne : s ≠ r := fun he => by rw [he] at hss; omega
          rw [Mem.put_get_ne _ _ hne]
          exact j9 s hs (by omega)
        · rcases eq_or_ne s r with rfl | hne
          · simp only [Mem.put_get_self]
            refine ⟨trivial, j3, by omega, e4⟩
          · simp only [Mem.put_get_ne _ _ hne]
            have hs' : (R s).start < psrc := by
              by_contra hcon
              have := hother s hs hne (by omega)
              omega
            obtain ⟨q1, q2, q3, q4⟩ := j10 s hs hs'
            exact ⟨q1, q2, by omega, q4.congr (fun i _ hi => hput i (by omega))⟩
        · have hlow : ∀ s, FullRow m R s → s ≠ r → (R s).start < psrc + (R r).length → (R s).start < psrc := by
            intro s hs hne hss
            by_contra hcon
            have := hother s hs hne (by omega)
            omega
          rcases eq_or_ne s r with rfl | hne
          · rw [Mem.put_get_self, Mem.put_get_ne _ _ hst.symm]
            have := (j10 t ht (hlow t ht hst.symm hts)).2.2.1
            right
            simp only
            omega
          · rcases eq_or_ne t r with rfl | hne'
            · rw [Mem.put_get_self, Mem.put_get_ne _ _ hne]
              have := (j10 s hs (hlow s hs hne hss)).2.2.1
              left
              simp only
              omega
            · rw [Mem.put_get_ne _ _ hne, Mem.put_get_ne _ _ hne']
              exact j11 s t hs ht hst (hlow s hs hne hss) (hlow t ht hne' hts)
        · have hne : s ≠ r := fun he => hs (by rw [he]; exact hr)
          rw [Mem.put_get_ne _ _ hne]
          exact j12 s h0 h1 hs
        · by_cases hi : i < pdest
          · rw [hput i hi]
            exact j13 i h0 hi
          · have hmem := e4.mem (i := i) (by omega) (by omega)
            rw [mem_liveCols] at hmem
            obtain ⟨⟨i', h1', h2', h3'⟩, _⟩ := hmem
            rw [← h3']
            exact (h.entryCol hr.1 h1' h2').1
        · have hset : (Finset.Ico 0 m).filter (fun s => FullRow m R s ∧ (R s).start < psrc + (R r).length) =
              insert r ((Finset.Ico 0 m).filter (fun s => FullRow m R s ∧ (R s).start < psrc)) := by
            ext s
            simp only [Finset.mem_filter, Finset.mem_insert, Finset.mem_Ico]
            constructor
            · rintro ⟨q1, q2, q3⟩
              rcases eq_or_ne s r with rfl | hne
              · exact Or.inl rfl
              · refine Or.inr ⟨q1, q2, ?_⟩
                by_contra hcon
                have := hother s q2 hne (by omega)
                omega
            · rintro (rfl | ⟨q1, q2, q3⟩)
              · exact ⟨⟨hr0, hrm⟩, hr, by omega⟩
              · exact ⟨q1, q2, by omega⟩
          rw [hset, Finset.sum_insert (by simp [hrs]), ← e4.card]
          omega
      · have hnone : ∀ r, FullRow m R r → (R r).start ≠ psrc := fun r hr he => hex ⟨r, hr, he⟩
        have hA := hA3 psrc (by omega) hnone
        have hnn := h.cells psrc (by omega) hp
        rw [hA, if_neg (by omega)]
        refine ih rows a pdest (psrc + 1) (by omega) ⟨j1, j2, ⟨j3, by omega, by omega⟩, fun i hi => j6 i (by omega), j7, fun s hs => ?_, fun s hs hss => j9 s hs (by omega),
          fun s hs hss => ?_, fun s t hs ht hst hss hts => ?_, j12, j13, ?_⟩
        · have := hnone s hs
          rcases j8 s hs with q | q <;> omega
        · have := hnone s hs
          exact j10 s hs (by omega)
        · have := hnone s hs
          have := hnone t ht
          exact j11 s t hs ht hst (by omega) (by omega)
        · rw [j14]
          congr 2
          ext s
          simp only [Finset.mem_filter]
          refine and_congr_right fun _ => and_congr_right fun hs => ?_
          have := hnone s hs
          omega
    · rw [if_neg hp]
      have : psrc = pfree := by omega
      subst this
      exact ⟨_, _, _, rfl, j1, j2, ⟨j3, j4, j5⟩, j6, j7, j8, j9, j10, j11, j12, j13, j14⟩

/-- The entries of the rows are as many as those of the columns. -/
theorem entries_count (h : Pattern m n top pfree R C A) :
    ∑ r ∈ (Finset.Ico 0 m).filter (FullRow m R), (((alive n C).filter (fun c => InCol C A c r)).card : Int) = ∑ c ∈ alive n C, (C c).length := by
  have e := Finset.sum_card_bipartiteAbove_eq_sum_card_bipartiteBelow (s := (Finset.Ico 0 m).filter (FullRow m R)) (t := alive n C)
    (fun r c => InCol C A c r)
  unfold Finset.bipartiteAbove Finset.bipartiteBelow at e
  have e' : ∑ r ∈ (Finset.Ico 0 m).filter (FullRow m R), (((alive n C).filter (fun c => InCol C A c r)).card : Int) =
      ∑ c ∈ alive n C, ((((Finset.Ico 0 m).filter (FullRow m R)).filter (fun r => InCol C A c r)).card : Int) := by
    exact_mod_cast e
  rw [e']
  refine Finset.sum_congr rfl fun c hc => ?_
  rw [mem_alive] at hc
  have hh : Holds A (C c).start (C c).length (((Finset.Ico 0 m).filter (FullRow m R)).filter (fun r => InCol C A c r)) := by
    refine ⟨h.colInj c hc, (h.colLen c hc).1, fun r => ?_⟩
    simp only [Finset.mem_filter, Finset.mem_Ico]
    constructor
    · intro hr
      have ha := h.colRow c hc r hr
      refine ⟨⟨⟨ha.1, ha.2.1⟩, ha, fun h0 => ?_⟩, hr⟩
      have := (h.sym c r hc ha).1 hr
      unfold InRow at this
      rw [h0] at this
      exact has_zero this
    · exact fun hr => hr.2
  exact hh.card.symm

/-- What garbage collection keeps. -/
structure Collected (m n top pfree : Int) (R : Int → ColamdRow) (C : Int → ColamdCol) (A : Int → Int) (top' pfree' : Int)
    (R' : Int → ColamdRow) (C' : Int → ColamdCol) (A' : Int → Int) : Prop where
  pattern : Pattern m n top' pfree' R' C' A'
  topLe : top' ≤ top
  free : pfree' = 2 * top'
  cols : ∀ c, C' c = { C c with start := (C' c).start }
  dead : ∀ c, ¬ AliveCol n C c → C' c = C c
  alive : ∀ c, AliveCol n C' c ↔ AliveCol n C c
  inCol : ∀ c, AliveCol n C c → ∀ r, InCol C' A' c r ↔ InCol C A c r
  rows : ∀ r, AliveRow m R' r → AliveRow m R r ∧ (R' r).degree = (R r).degree

theorem garbage_of (h : Pattern m n top pfree R C A) (hsf : pfree < 2 ^ 31) (b : ColamdBuffers) (hR : b.rows.get = R) (hC : b.cols.get = C) (hA : b.a.get = A)
    (hm : m ≤ b.rows.size) (hn : n ≤ b.cols.size) (ha : pfree ≤ b.a.size) :
    ∃ b' pfree' top', garbageCollection m n b pfree = .ok (b', pfree') ∧ b'.rows.size = b.rows.size ∧ b'.cols.size = b.cols.size ∧
      b'.a.size = b.a.size ∧ b'.head = b.head ∧ Collected m n top pfree R C A top' pfree' b'.rows.get b'.cols.get b'.a.get := by
  obtain ⟨⟨cols, a1, T⟩, e1, f1, f2, f3, f4, f5, f6, ⟨p0, pt, pd⟩, f7, f8, f9⟩ := moveColumns_of h b hR hC hA hm hn ha
  simp only at f1 f2 f3 f4 f5 f6 p0 pt pd f7 f8 f9
  obtain ⟨⟨rows2, a2⟩, e2, k1, k2, k3, k4, k5, k6⟩ := markRows_of h b.rows hR a1 hm (by omega)
  simp only at k1 k2 k3 k4 k5 k6
  have htf := h.topFree
  have halive : ∀ c, AliveCol n cols.get c ↔ AliveCol n C c := by
    intro c
    by_cases hc : AliveCol n C c
    · simp only [hc, iff_true]
      exact ⟨hc.1, hc.2.1, (f5 c hc hc.2.1).2.1⟩
    · simp only [hc, iff_false]
      intro h'
      have := f4 c hc
      exact hc ⟨h'.1, h'.2.1, by rw [← this]; exact h'.2.2⟩
  have hcols : ∀ c, cols.get c = { C c with start := (cols.get c).start } := by
    intro c
    by_cases hc : AliveCol n C c
    · exact (f5 c hc hc.2.1).1
    · rw [f4 c hc]
  have hlen : ∀ c, (cols.get c).length = (C c).length := fun c => by rw [hcols c]
  have hstart : ∀ r, FullRow m R r → top ≤ (R r).start ∧ (R r).start + (R r).length ≤ pfree ∧ 0 < (R r).length := by
    intro r hr
    obtain ⟨g1, g2, g3⟩ := h.rowLen r hr.1
    have := hr.2
    omega
  obtain ⟨rows', a', p', e3, q1, q2, ⟨q3, q4, q5⟩, q6, q7, q8, q9, q10, q11, q12, q13, q14⟩ := moveRows_of h hsf cols (by omega) p0 pt (A2 := a2.get)
    (fun r hr => (k4 r hr hr.1.2.1).2) (fun i hi hnone => by
      rw [k6 i (fun r hr _ => hnone r hr)]
      exact f8 i hi) (rsize := b.rows.size) (asize := b.a.size) hm ha (pfree.toNat + 1) rows2 a2 T T (by omega)
    ⟨k1, by omega, ⟨le_refl _, le_refl _, by omega⟩, fun _ _ => rfl, fun _ _ => rfl, fun r hr => Or.inl (by have := (hstart r hr).1; omega),
      fun r hr _ => by rw [(k4 r hr hr.1.2.1).1, f8 _ (by have := (hstart r hr).1; omega)],
      fun r hr hlt => by have := (hstart r hr).1; omega, fun r s hr _ _ hlt => by have := (hstart r hr).1; omega,
      fun r h0 h1 hr => k5 r h0 h1 hr, fun i h0 h1 => by
        rw [k6 i (fun r hr _ => by have := (hstart r hr).1; omega)]
        exact f9 i h0 (by omega), by
        rw [Finset.filter_false_of_mem]
        · simp
        · rintro r _ ⟨hr, hlt⟩
          have := (hstart r hr).1
          omega⟩
  have hTsum : T = ∑ c ∈ alive n C, (C c).length := by
    rw [f7, Finset.filter_true_of_mem]
    intro c hc
    exact (mem_alive.1 hc).2.1
  have hlow : ∀ i, i < T → a'.get i = a1.get i := by
    intro i hi
    rw [q7 i hi]
    exact k6 i (fun r hr _ => by have := (hstart r hr).1; omega)
  have hin : ∀ c, AliveCol n C c → ∀ r, InCol cols.get a'.get c r ↔ InCol C A c r := by
    intro c hc r
    obtain ⟨g1, g2, g3, g4⟩ := f5 c hc hc.2.1
    unfold InCol
    rw [hlen c]
    refine has_shift fun j h1 h2 => ?_
    rw [hlow _ (by omega)]
    exact g4 j h1 h2
  have hfull : ∀ r, AliveRow m rows'.get r ↔ FullRow m R r := by
    intro r
    constructor
    · intro hr
      by_contra hcon
      have := q12 r hr.1 hr.2.1 hcon
      have h3 := hr.2.2
      rw [this] at h3
      simp only at h3
      omega
    · intro hr
      refine ⟨hr.1.1, hr.1.2.1, ?_⟩
      have g := hstart r hr
      have := (q10 r hr (by omega)).1
      rw [this]
      exact h.cells _ (by omega) (by omega)
  have hdone := fun r (hr : FullRow m R r) => q10 r hr (by have := hstart r hr; omega)
  have hlive : ∀ r, FullRow m R r → ∀ c, c ∈ liveCols cols.get A (R r).start ((R r).start + (R r).length) ↔ AliveCol n C c ∧ InRow R A r c := by
    intro r hr c
    rw [mem_liveCols]
    constructor
    · rintro ⟨hx, hs⟩
      have hc := h.rowCol r hr.1 c hx
      exact ⟨(halive c).1 ⟨hc.1, hc.2, hs⟩, hx⟩
    · rintro ⟨h1, h2⟩
      exact ⟨h2, ((halive c).2 h1).2.2⟩
  have hinRow : ∀ r, FullRow m R r → ∀ c, InRow rows'.get a'.get r c ↔ AliveCol n C c ∧ InRow R A r c := by
    intro r hr c
    rw [← hlive r hr c]
    exact (hdone r hr).2.2.2.2.2 c
  have hfree : p' = 2 * T := by
    have hsum : ∑ r ∈ (Finset.Ico 0 m).filter (fun r => FullRow m R r ∧ (R r).start < pfree),
        ((liveCols cols.get A (R r).start ((R r).start + (R r).length)).card : Int) =
        ∑ r ∈ (Finset.Ico 0 m).filter (FullRow m R), (((alive n C).filter (fun c => InCol C A c r)).card : Int) := by
      refine Finset.sum_congr ?_ ?_
      · ext r
        simp only [Finset.mem_filter]
        refine and_congr_right fun _ => ⟨fun hr => hr.1, fun hr => ⟨hr, ?_⟩⟩
        have := hstart r hr
        omega
      · intro r hr
        have hr' : FullRow m R r := (Finset.mem_filter.1 hr).2
        congr 2
        ext c
        rw [hlive r hr' c, Finset.mem_filter, mem_alive]
        exact and_congr_right fun hc => (h.sym c r hc hr'.1).symm
    rw [hsum, entries_count h, ← hTsum] at q14
    omega
  refine ⟨⟨rows', cols, a', b.head⟩, p', T, ?_, q1, f1, q2, rfl, ⟨h.rows0, h.cols0, p0, q3, ⟨h.small.1, h.small.2.1, by have := h.small.2.2; omega⟩, fun c hc => ?_, fun c d hc hd hcd => ?_, fun r hr => ?_, fun r s hr hs hne => ?_,
    fun i h0 h1 => q13 i h0 h1, fun c hc => ?_, fun r hr => ?_, fun c hc r hr => ?_, fun r hr c hc => ?_, fun c r hc hr => ?_⟩, pt, hfree, hcols, f4, halive, hin, fun r hr => ?_⟩
  · unfold garbageCollection
    rw [e1, ok_bind, e2, ok_bind]
    simp only
    rw [e3, ok_bind]
    simp only
    rw [i32_of (by omega) (by omega), ok_bind]
    rfl
  · have hc' := (halive c).1 hc
    simp only
    rw [hlen c]
    exact ⟨(h.colLen c hc').1, (f5 c hc' hc'.2.1).2.2.1⟩
  · simp only
    rw [hlen c]
    exact f6 c d ((halive c).1 hc) ((halive d).1 hd) hcd hd.2.1
  · obtain ⟨g1, g2, g3, g4⟩ := hdone r ((hfull r).1 hr)
    exact ⟨g2, g4.2.1, g3⟩
  · have hr' := (hfull r).1 hr
    have hs' := (hfull s).1 hs
    have g1 := hstart r hr'
    have g2 := hstart s hs'
    exact q11 r s hr' hs' hne (by omega) (by omega)
  · have hc' := (halive c).1 hc
    obtain ⟨g1, g2, g3, g4⟩ := f5 c hc' hc'.2.1
    simp only
    rw [hlen c]
    refine (h.colInj c hc').shift fun j h1 h2 => ?_
    rw [hlow _ (by omega)]
    exact g4 j h1 h2
  · exact (hdone r ((hfull r).1 hr)).2.2.2.1
  · rw [hfull]
    have hc' := (halive c).1 hc
    have hr' := (hin c hc' r).1 hr
    have hra := h.colRow c hc' r hr'
    refine ⟨hra, fun h0 => ?_⟩
    have := (h.sym c r hc' hra).1 hr'
    unfold InRow at this
    rw [h0] at this
    exact has_zero this
  · have hr' := (hfull r).1 hr
    exact h.rowCol r hr'.1 c ((hinRow r hr' c).1 hc).2
  · have hc' := (halive c).1 hc
    have hr' := (hfull r).1 hr
    simp only
    rw [hin c hc' r, hinRow r hr' c, h.sym c r hc' hr'.1]
    simp [hc']
  · have hr' := (hfull r).1 hr
    refine ⟨hr'.1, ?_⟩
    have := (hdone r hr').1
    simp only
    rw [this]

end
end Fiksi.Amd
