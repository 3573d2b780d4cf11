import Verif.Props.ColamdOrdering
import Verif.Proofs.Real
import Mathlib.Algebra.Order.Floor.Ring
/-!
# C59: the rows and columns that `colamd` and `symamd` ignore

Over the real numbers, with `as i32` as truncation that saturates.
-/
namespace Fiksi
open Spec Classical

/-- `x as i32`. -/
noncomputable def Spec.truncI32 (x : ℝ) : Int := if 0 ≤ x then min ⌊x⌋ (2 ^ 31 - 1) else max ⌈x⌉ (-2 ^ 31)

theorem truncI32_lt {x : ℝ} (hx : 0 ≤ x) {k : Int} (hk : k < 2 ^ 31) : truncI32 x < k ↔ x < k := by
  unfold truncI32
  rw [if_pos hx, ← Int.floor_lt]
  generalize ⌊x⌋ = y
  constructor <;> intro h <;> omega

theorem denseCount_lt {control : ℝ} {n k : Int} (hk : k < 2 ^ 31) : denseCount truncI32 control n < k ↔ max 16 (control * √(n.toNat : ℝ)) < (k : ℝ) := by
  unfold denseCount
  simp only [FloatOps.ltB, FloatOps.sqrt, FloatOps.ofNat, decide_eq_true_eq]
  have h16 : ((16 : ℕ) : ℝ) = 16 := by norm_num
  rw [h16]
  split
  · rename_i h
    rw [truncI32_lt (by norm_num) hk, max_eq_left h.le]
  · rename_i h
    rw [not_lt] at h
    rw [truncI32_lt (by linarith) hk, max_eq_right h]

section Congr
variable {a p : Int → Int} {m n : Int} {DR DC DR' DC' : Int → Prop} {K : Int}

theorem rowCount_congr (hc : ∀ c, 0 ≤ c → c < n → (DC (p (c + 1) - p c) ↔ DC' (p (c + 1) - p c))) (r : Int) : rowCount a p n DC r = rowCount a p n DC' r := by
  unfold rowCount
  congr 2
  refine Finset.filter_congr fun c hc' => ?_
  rw [Finset.mem_Ico] at hc'
  rw [hc c hc'.1 hc'.2]

theorem rowCount_range (hn : 0 ≤ n) (r : Int) : 0 ≤ rowCount a p n DC r ∧ rowCount a p n DC r ≤ n := by
  unfold rowCount
  refine ⟨by omega, ?_⟩
  have := Finset.card_filter_le (Finset.Ico 0 n) (fun c => Entry a p r c ∧ ¬ DC (p (c + 1) - p c))
  rw [Int.card_Ico] at this
  omega

theorem rowIgnored_congr (hn : 0 ≤ n) (hc : ∀ c, 0 ≤ c → c < n → (DC (p (c + 1) - p c) ↔ DC' (p (c + 1) - p c))) (hr : ∀ k, 0 ≤ k → k ≤ n → (DR k ↔ DR' k)) (r : Int) :
    RowIgnored a p n DR DC r ↔ RowIgnored a p n DR' DC' r := by
  unfold RowIgnored
  rw [rowCount_congr hc r, hr _ (rowCount_range hn r).1 (rowCount_range hn r).2]

theorem ignoredRows_congr (hn : 0 ≤ n) (hc : ∀ c, 0 ≤ c → c < n → (DC (p (c + 1) - p c) ↔ DC' (p (c + 1) - p c))) (hr : ∀ k, 0 ≤ k → k ≤ n → (DR k ↔ DR' k)) :
    ignoredRows a p m n DR DC = ignoredRows a p m n DR' DC' := by
  unfold ignoredRows
  congr 2
  exact Finset.filter_congr fun r _ => rowIgnored_congr hn hc hr r

theorem lastColumns_congr (hn : 0 ≤ n) (hc : ∀ c, 0 ≤ c → c < n → (DC (p (c + 1) - p c) ↔ DC' (p (c + 1) - p c))) (hr : ∀ k, 0 ≤ k → k ≤ n → (DR k ↔ DR' k)) :
    lastColumns a p n DR DC = lastColumns a p n DR' DC' := by
  unfold lastColumns
  congr 1
  · refine List.filter_congr fun c hc' => ?_
    rw [Amd.mem_span] at hc'
    rw [decide_eq_decide, hc c hc'.1 (by omega)]
    simp only [rowIgnored_congr hn hc hr]
  · congr 1
    refine List.filter_congr fun c hc' => ?_
    rw [Amd.mem_span] at hc'
    rw [decide_eq_decide, hc c hc'.1 (by omega)]

end Congr

theorem denseRowCount_lt {options : ColamdOptions ℝ} (h : 0 ≤ options.denseRowControl) {nCol k : Int} (hk : k < 2 ^ 31) :
    denseRowCount truncI32 options nCol < k ↔ max 16 (options.denseRowControl * √(nCol.toNat : ℝ)) < (k : ℝ) := by
  unfold denseRowCount
  simp only [FloatOps.ltB]
  rw [if_neg (by simpa using h), denseCount_lt hk]

theorem denseColCount_lt {options : ColamdOptions ℝ} (h : 0 ≤ options.denseColControl) {nRow nCol k : Int} (hk : k < 2 ^ 31) :
    denseColCount truncI32 options nRow nCol < k ↔ max 16 (options.denseColControl * √((min nRow nCol).toNat : ℝ)) < (k : ℝ) := by
  unfold denseColCount
  simp only [FloatOps.ltB]
  rw [if_neg (by simpa using h), denseCount_lt hk]
  have : (if nRow < nCol then nRow else nCol) = min nRow nCol := by
    split <;> omega
  rw [this]

theorem colamd_eq {F : Type} [Mul F] [Zero F] [FloatOps F] (cast : F → Int) (options : ColamdOptions F) {nRow nCol nnz : Int} {a p : List Int}
    (h : ColumnForm (Mem.ofList a 0).get (Mem.ofList p 0).get nRow nCol) (hs : SortedColumns (Mem.ofList a 0).get (Mem.ofList p 0).get nCol)
    (hp : (p.length : Int) = nCol + 1) (hnnz : (Mem.ofList p 0).get nCol = nnz) (hr : nRow < 2 ^ 31) (hc : nCol + 1 < 2 ^ 31) (hz : 2 * nnz < 2 ^ 31)
    (hlen : 2 * nnz + nCol + 6 * (nCol + 1) + 4 * (nRow + 1) ≤ a.length) (hfit : a.length < 2 ^ 31) :
    ∃ (collections : Int) (perm : List Int),
      colamd cast options nRow nCol a p = .ok (.ok ⟨.ok,
        ignoredRows (Mem.ofList a 0).get (Mem.ofList p 0).get nRow nCol (denseRowCount cast options nCol < ·) (denseColCount cast options nRow nCol < ·),
        (lastColumns (Mem.ofList a 0).get (Mem.ofList p 0).get nCol (denseRowCount cast options nCol < ·) (denseColCount cast options nRow nCol < ·)).length,
        collections⟩, some (perm ++ [-1])) ∧ perm.Perm (span 0 nCol.toNat) ∧
      lastColumns (Mem.ofList a 0).get (Mem.ofList p 0).get nCol (denseRowCount cast options nCol < ·) (denseColCount cast options nRow nCol < ·) <:+ perm := by
  obtain ⟨stats, perm, e, hst, hperm, g1, g2, g3, -⟩ := colamdMain_of cast options h hs hp hnnz hr hc hz hlen hfit
  refine ⟨stats.defrag, perm, ?_, hperm, g3⟩
  unfold colamd
  rw [assertPointers_of h.cols hc hp, ok_bind, e, ok_bind]
  simp only
  unfold statsToResult
  rw [if_pos hst, ← g1, ← g2]
  rfl

/-- The number of entries of a column is small. -/
theorem colCount_lt {a p : Int → Int} {m n nnz : Int} (h : ColumnForm a p m n) (hnnz : p n = nnz) (hz : 2 * nnz < 2 ^ 31) {c : Int} (c0 : 0 ≤ c) (cn : c < n) : p (c + 1) - p c < 2 ^ 31 := by
  have h1 := h.nonneg c0 (by omega)
  have h2 := h.mono' (show 0 ≤ c + 1 by omega) (show c + 1 ≤ n by omega) (le_refl n)
  omega

/-- C59 (partial: the entries of a row are counted in the columns that are not dense): with controls that are not negative, the columns with more than
`max(16, dense_column_control * sqrt(min(n_row, n_col)))` entries are placed last in the output, followed only by the empty columns and preceded by the
columns of which every row is ignored; a row is ignored if it has more than `max(16, dense_row_control * sqrt(n_col))` entries in the columns that are
not dense, or none. The statistics report the numbers of the rows and columns that were ignored. -/
theorem C59_ignored_partial (options : ColamdOptions ℝ) (hrow : 0 ≤ options.denseRowControl) (hcol : 0 ≤ options.denseColControl) {nRow nCol nnz : Int} {a p : List Int}
    (h : ColumnForm (Mem.ofList a 0).get (Mem.ofList p 0).get nRow nCol) (hs : SortedColumns (Mem.ofList a 0).get (Mem.ofList p 0).get nCol)
    (hp : (p.length : Int) = nCol + 1) (hnnz : (Mem.ofList p 0).get nCol = nnz) (hr : nRow < 2 ^ 31) (hc : nCol + 1 < 2 ^ 31) (hz : 2 * nnz < 2 ^ 31)
    (hlen : 2 * nnz + nCol + 6 * (nCol + 1) + 4 * (nRow + 1) ≤ a.length) (hfit : a.length < 2 ^ 31) {DenseRow DenseCol : Int → Prop}
    (hDR : ∀ k, DenseRow k ↔ max 16 (options.denseRowControl * √(nCol.toNat : ℝ)) < (k : ℝ))
    (hDC : ∀ k, DenseCol k ↔ max 16 (options.denseColControl * √((min nRow nCol).toNat : ℝ)) < (k : ℝ)) :
    ∃ (collections : Int) (perm : List Int),
      colamd truncI32 options nRow nCol a p = .ok (.ok ⟨.ok, ignoredRows (Mem.ofList a 0).get (Mem.ofList p 0).get nRow nCol DenseRow DenseCol,
        (lastColumns (Mem.ofList a 0).get (Mem.ofList p 0).get nCol DenseRow DenseCol).length, collections⟩, some (perm ++ [-1])) ∧ perm.Perm (span 0 nCol.toNat) ∧
      lastColumns (Mem.ofList a 0).get (Mem.ofList p 0).get nCol DenseRow DenseCol <:+ perm := by
  obtain ⟨collections, perm, e, e1, e2⟩ := colamd_eq truncI32 options h hs hp hnnz hr hc hz hlen hfit
  have q1 : ∀ c, 0 ≤ c → c < nCol → (denseColCount truncI32 options nRow nCol < (Mem.ofList p 0).get (c + 1) - (Mem.ofList p 0).get c ↔
      DenseCol ((Mem.ofList p 0).get (c + 1) - (Mem.ofList p 0).get c)) := fun c c0 cn => by
    rw [denseColCount_lt hcol (colCount_lt h hnnz hz c0 cn), hDC]
  have q2 : ∀ k, 0 ≤ k → k ≤ nCol → (denseRowCount truncI32 options nCol < k ↔ DenseRow k) := fun k k0 k1 => by
    rw [denseRowCount_lt hrow (by omega), hDR]
  rw [lastColumns_congr (DR := (denseRowCount truncI32 options nCol < ·)) h.cols q1 q2] at e e2
  rw [ignoredRows_congr (DR := (denseRowCount truncI32 options nCol < ·)) h.cols q1 q2] at e
  exact ⟨collections, perm, e, e1, e2⟩

/-- C59: a negative control is not read as the documentation says, where the bound is never below 16: only rows and columns without a zero are dense. -/
theorem C59_negative_control (options : ColamdOptions ℝ) (hrow : options.denseRowControl < 0) (hcol : options.denseColControl < 0) {nRow nCol nnz : Int} {a p : List Int}
    (h : ColumnForm (Mem.ofList a 0).get (Mem.ofList p 0).get nRow nCol) (hs : SortedColumns (Mem.ofList a 0).get (Mem.ofList p 0).get nCol)
    (hp : (p.length : Int) = nCol + 1) (hnnz : (Mem.ofList p 0).get nCol = nnz) (hr : nRow < 2 ^ 31) (hc : nCol + 1 < 2 ^ 31) (hz : 2 * nnz < 2 ^ 31)
    (hlen : 2 * nnz + nCol + 6 * (nCol + 1) + 4 * (nRow + 1) ≤ a.length) (hfit : a.length < 2 ^ 31) :
    ∃ (collections : Int) (perm : List Int),
      colamd truncI32 options nRow nCol a p = .ok (.ok ⟨.ok, ignoredRows (Mem.ofList a 0).get (Mem.ofList p 0).get nRow nCol (nCol ≤ ·) (nRow ≤ ·),
        (lastColumns (Mem.ofList a 0).get (Mem.ofList p 0).get nCol (nCol ≤ ·) (nRow ≤ ·)).length, collections⟩, some (perm ++ [-1])) ∧ perm.Perm (span 0 nCol.toNat) ∧
      lastColumns (Mem.ofList a 0).get (Mem.ofList p 0).get nCol (nCol ≤ ·) (nRow ≤ ·) <:+ perm := by
  obtain ⟨collections, perm, e, e1, e2⟩ := colamd_eq truncI32 options h hs hp hnnz hr hc hz hlen hfit
  have d1 : denseRowCount truncI32 options nCol = nCol - 1 := by
    unfold denseRowCount
    rw [if_pos (by simpa [FloatOps.ltB] using hrow)]
  have d2 : denseColCount truncI32 options nRow nCol = nRow - 1 := by
    unfold denseColCount
    rw [if_pos (by simpa [FloatOps.ltB] using hcol)]
  rw [d1, d2] at e e2
  have q1 : ∀ c, 0 ≤ c → c < nCol → (nRow - 1 < (Mem.ofList p 0).get (c + 1) - (Mem.ofList p 0).get c ↔
      nRow ≤ (Mem.ofList p 0).get (c + 1) - (Mem.ofList p 0).get c) := fun c c0 cn => by omega
  have q2 : ∀ k : Int, 0 ≤ k → k ≤ nCol → (nCol - 1 < k ↔ nCol ≤ k) := fun k k0 k1 => by omega
  rw [lastColumns_congr (DR := (nCol - 1 < ·)) (DC := (nRow - 1 < ·)) (DC' := (nRow ≤ ·)) (DR' := (nCol ≤ ·)) h.cols q1 q2] at e e2
  rw [ignoredRows_congr (DR := (nCol - 1 < ·)) (DC := (nRow - 1 < ·)) (DC' := (nRow ≤ ·)) (DR' := (nCol ≤ ·)) h.cols q1 q2] at e
  exact ⟨collections, perm, e, e1, e2⟩

/-! ## A dense row that is kept -/

/-- Column 0 is full; row 0 is full; all other entries of the `17 × 17` matrix are zero. -/
def crossRows : List Int := (List.range 17).map (fun i : Nat => (i : Int)) ++ List.replicate 250 0
def crossPointers : List Int := 0 :: (List.range 17).map (fun i : Nat => (17 + i : Int))

theorem cross_pointer : (Mem.ofList crossPointers 0).get 0 = 0 ∧ ∀ c, 1 ≤ c → c ≤ 17 → (Mem.ofList crossPointers 0).get c = 16 + c :=
  ⟨rfl, fun c h0 h1 => by interval_cases c <;> decide +kernel⟩

theorem cross_row : (∀ i, 0 ≤ i → i ≤ 16 → (Mem.ofList crossRows 0).get i = i) ∧ ∀ i, 17 ≤ i → i ≤ 32 → (Mem.ofList crossRows 0).get i = 0 :=
  ⟨fun i h0 h1 => by interval_cases i <;> decide +kernel, fun i h0 h1 => by interval_cases i <;> decide +kernel⟩

theorem cross_entry {r c : Int} (c0 : 0 ≤ c) (cn : c < 17) :
    Entry (Mem.ofList crossRows 0).get (Mem.ofList crossPointers 0).get r c ↔ (c = 0 ∧ 0 ≤ r ∧ r ≤ 16) ∨ (1 ≤ c ∧ r = 0) := by
  obtain ⟨p0, p1⟩ := cross_pointer
  obtain ⟨a0, a1⟩ := cross_row
  unfold Entry
  rw [p1 (c + 1) (by omega) (by omega)]
  rcases eq_or_ne c 0 with rfl | hne
  · rw [p0]
    constructor
    · rintro ⟨i, i1, i2, i3⟩
      rw [a0 i i1 (by omega)] at i3
      omega
    · rintro (⟨_, r0, r1⟩ | ⟨q, _⟩)
      · exact ⟨r, r0, by omega, a0 r r0 r1⟩
      · omega
  · rw [p1 c (by omega) (by omega)]
    constructor
    · rintro ⟨i, i1, i2, i3⟩
      rw [a1 i (by omega) (by omega)] at i3
      omega
    · rintro (⟨q, _⟩ | ⟨_, rfl⟩)
      · omega
      · exact ⟨16 + c, by omega, by omega, a1 _ (by omega) (by omega)⟩

theorem cross_form : ColumnForm (Mem.ofList crossRows 0).get (Mem.ofList crossPointers 0).get 17 17 := by
  obtain ⟨p0, p1⟩ := cross_pointer
  obtain ⟨a0, a1⟩ := cross_row
  refine ⟨by decide, by decide, p0, fun c c0 cn => ?_, fun i i0 i1 => ?_⟩
  · rw [p1 (c + 1) (by omega) (by omega)]
    rcases eq_or_ne c 0 with rfl | hne
    · rw [p0]; omega
    · rw [p1 c (by omega) (by omega)]; omega
  · rw [p1 17 (by omega) (by omega)] at i1
    by_cases hi : i ≤ 16
    · rw [a0 i i0 hi]; omega
    · rw [a1 i (by omega) (by omega)]; omega

theorem cross_sorted : SortedColumns (Mem.ofList crossRows 0).get (Mem.ofList crossPointers 0).get 17 := by
  obtain ⟨p0, p1⟩ := cross_pointer
  obtain ⟨a0, a1⟩ := cross_row
  intro c c0 cn i j h1 h2 h3
  rw [p1 (c + 1) (by omega) (by omega)] at h3
  rcases eq_or_ne c 0 with rfl | hne
  · rw [p0] at h1
    rw [a0 i h1 (by omega), a0 j (by omega) (by omega)]
    exact h2
  · rw [p1 c (by omega) (by omega)] at h1
    omega

/-- C59: the documentation says that a row with more than `max(16, dense_row_control * sqrt(n_col))` entries is removed. Here every bound is 16, row 0 has 17
entries and is kept: 16 rows are ignored, those that have their only entry in the dense column 0. -/
theorem C59_dense_row_kept : ∃ (collections : Int) (perm : List Int),
    colamd truncI32 ⟨0, 0, true⟩ 17 17 crossRows crossPointers = .ok (.ok ⟨.ok, 16, 1, collections⟩, some (perm ++ [0, -1])) ∧
    (∀ c, 0 ≤ c → c < 17 → Entry (Mem.ofList crossRows 0).get (Mem.ofList crossPointers 0).get 0 c) ∧
    ∀ r c, 1 ≤ r → r < 17 → 0 ≤ c → c < 17 → (Entry (Mem.ofList crossRows 0).get (Mem.ofList crossPointers 0).get r c ↔ c = 0) := by
  obtain ⟨D, hD⟩ : ∃ D : Int → Prop, ∀ k, D k ↔ 16 < k := ⟨_, fun _ => Iff.rfl⟩
  have hone : ∀ x : ℝ, max 16 (0 * x) = 16 := fun x => by norm_num
  obtain ⟨collections, perm, e, e1, e2⟩ := C59_ignored_partial ⟨0, 0, true⟩ (le_refl _) (le_refl _) cross_form cross_sorted (by decide +kernel) (cross_pointer.2 17 (by omega) (by omega))
    (by omega) (by omega) (by omega) (by decide +kernel) (by decide +kernel) (DenseRow := D) (DenseCol := D)
    (fun k => by rw [hone, hD]; norm_cast) (fun k => by rw [hone, hD]; norm_cast)
  obtain ⟨p0, p1⟩ := cross_pointer
  have hlen : ∀ c, 0 ≤ c → c < 17 → (Mem.ofList crossPointers 0).get (c + 1) - (Mem.ofList crossPointers 0).get c = if c = 0 then 17 else 1 := fun c c0 cn => by
    rw [p1 (c + 1) (by omega) (by omega)]
    split
    · rename_i q
      rw [q, p0]
      norm_num
    · rw [p1 c (by omega) (by omega)]
      ring
  have hcount : ∀ r, 0 ≤ r → r < 17 → rowCount (Mem.ofList crossRows 0).get (Mem.ofList crossPointers 0).get 17 D r = if r = 0 then 16 else 0 := fun r r0 rn => by
    unfold rowCount
    refine (congrArg (a₂ := if r = 0 then Finset.Ico (1 : Int) 17 else ∅) (fun S : Finset Int => (S.card : Int)) ?_).trans ?_
    · ext c
      rw [Finset.mem_filter, Finset.mem_Ico]
      constructor
      · rintro ⟨⟨c0, cn⟩, q1, q2⟩
        rw [hlen c c0 cn, hD] at q2
        rw [cross_entry c0 cn] at q1
        have hc : c ≠ 0 := fun q => by rw [if_pos q] at q2; omega
        rcases q1 with q1 | q1
        · exact absurd q1.1 hc
        · rw [if_pos q1.2, Finset.mem_Ico]
          omega
      · intro q
        split at q
        · rename_i hr
          rw [Finset.mem_Ico] at q
          refine ⟨by omega, (cross_entry (by omega) q.2).2 (Or.inr ⟨q.1, hr⟩), ?_⟩
          rw [hlen c (by omega) q.2, hD, if_neg (by omega)]
          omega
        · simp at q
    · split
      · simp
      · simp
  have hign : ∀ r, 0 ≤ r → r < 17 → (RowIgnored (Mem.ofList crossRows 0).get (Mem.ofList crossPointers 0).get 17 D D r ↔ r ≠ 0) := fun r r0 rn => by
    unfold RowIgnored
    rw [hcount r r0 rn, hD]
    split
    · rename_i q
      simp [q]
    · rename_i q
      simp [q]
  have hrows : ignoredRows (Mem.ofList crossRows 0).get (Mem.ofList crossPointers 0).get 17 17 D D = 16 := by
    unfold ignoredRows
    rw [Finset.filter_congr (q := fun r => r ≠ 0) (fun r hr => by
      rw [Finset.mem_Ico] at hr
      exact hign r hr.1 hr.2)]
    have : (Finset.Ico (0 : Int) 17).filter (fun r => r ≠ 0) = Finset.Ico 1 17 := by
      ext r
      simp only [Finset.mem_filter, Finset.mem_Ico]
      omega
    rw [this]
    simp
  have hcols : lastColumns (Mem.ofList crossRows 0).get (Mem.ofList crossPointers 0).get 17 D D = [0] := by
    unfold lastColumns
    refine (congrArg₂ (x' := []) (fun x y : List Int => x ++ y) ?_ (congrArg₂ (x' := [0]) (y' := []) (fun x y : List Int => x ++ y) ?_ ?_)).trans rfl
    · rw [List.filter_eq_nil_iff]
      intro c hc q
      rw [Amd.mem_span] at hc
      have cn : c < 17 := by simpa using hc.2
      rw [decide_eq_true_eq, hlen c hc.1 cn, hD] at q
      obtain ⟨_, q2, q3⟩ := q
      have hc0 : c ≠ 0 := fun q => by rw [if_pos q] at q2; omega
      exact (hign 0 (by omega) (by omega)).1 (q3 0 ((cross_entry hc.1 cn).2 (Or.inr ⟨by have := hc.1; omega, rfl⟩))) rfl
    · rw [List.filter_congr (q := fun c => c == 0) (fun c hc => by
        rw [Amd.mem_span] at hc
        rw [hlen c hc.1 (by simpa using hc.2), hD]
        by_cases q : c = 0
        · simp [q]
        · simp [q])]
      decide +kernel
    · rw [List.filter_eq_nil_iff]
      intro c hc q
      rw [Amd.mem_span] at hc
      rw [decide_eq_true_eq, hlen c hc.1 (by simpa using hc.2)] at q
      split at q <;> omega
  rw [hrows, hcols] at e
  rw [hcols] at e2
  obtain ⟨front, hf⟩ := e2
  refine ⟨collections, front, ?_, fun c c0 cn => ?_, fun r c r0 rn c0 cn => ?_⟩
  · rw [e, ← hf, List.append_assoc]
    rfl
  · rw [cross_entry c0 cn]
    omega
  · rw [cross_entry c0 cn]
    omega

end Fiksi
