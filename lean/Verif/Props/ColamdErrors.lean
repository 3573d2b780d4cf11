import Verif.Proofs.ColamdChecks
import Verif.Proofs.Real
import Mathlib.Tactic.IntervalCases
/-!
# Workspace and argument checks of `colamd` (C43, C44)
-/
namespace Fiksi

variable {F : Type} [Mul F] [Zero F] [FloatOps F]

/-! ## C43 -/

/-- C43: `colamd_recommended` answers exactly for non-negative arguments. -/
theorem C43_recommended_answers (nnz nRow nCol : Int) (h1 : nnz < 2 ^ 31) (h2 : nRow < 2 ^ 31) (h3 : nCol < 2 ^ 31) :
    (∃ len, colamdRecommended nnz nRow nCol = some len) ↔ 0 ≤ nnz ∧ 0 ≤ nRow ∧ 0 ≤ nCol := by
  constructor
  · rintro ⟨len, h⟩
    obtain ⟨a, b, c, _⟩ := colamdRecommended_eq h
    exact ⟨a, b, c⟩
  · rintro ⟨a, b, c⟩
    exact ⟨_, colamdRecommended_of a h1 b h2 c h3⟩

/-- C43: with a buffer at least as long as recommended, `colamd` never reports that the buffer is too small. -/
theorem C43_recommended_suffices (cast : F → Int) (options : ColamdOptions F) (nRow nCol nnz : Int) (a p : List Int) (len : Nat)
    (h1 : nRow < 2 ^ 31) (h2 : nCol < 2 ^ 31) (h3 : nnz < 2 ^ 31) (hnnz : p[nCol.toNat]? = some nnz)
    (hlen : colamdRecommended nnz nRow nCol = some len) (ha : len ≤ a.length)
    (result : Except ColamdError ColamdStatistics) (p' : Option (List Int))
    (h : colamd cast options nRow nCol a p = .ok (result, p')) (required actual : Int) : result ≠ .error (.aTooSmall required actual) := by
  obtain ⟨hz, hr, hc, rfl⟩ := colamdRecommended_eq hlen
  rintro rfl
  unfold colamd at h
  obtain ⟨_, hp, h⟩ := bind_eq_ok.1 h
  obtain ⟨r, hmain, h⟩ := bind_eq_ok.1 h
  obtain ⟨res, hres, h⟩ := bind_eq_ok.1 h
  have hcode : r.1.status = -7 := by
    cases h
    unfold statsToResult at hres
    split at hres
    · cases hres
    split at hres
    · cases hres
    split at hres
    · cases hres
    split at hres
    · assumption
    split at hres
    · cases hres
    split at hres
    · cases hres
    · cases hres
  clear h hres
  unfold colamdMain at hmain
  obtain ⟨c, hchk, hmain⟩ := bind_eq_ok.1 hmain
  have hc7 : ∀ e, c = .error e → e.status ≠ -7 := by
    rintro e rfl
    unfold colamdChecks at hchk
    simp only [not_lt.2 hr, if_false, not_lt.2 hc, idx_of hnnz, ok_bind, not_lt.2 hz] at hchk
    obtain ⟨first, _, hchk⟩ := bind_eq_ok.1 hchk
    split at hchk
    · cases hchk; exact (by decide : ¬ (-6 : Int) = -7)
    · rw [colamdSizes_of (by omega) (by omega) (by omega)] at hchk
      simp only at hchk
      rw [if_neg (by omega)] at hchk
      cases hchk
  cases c with
  | error e => cases hmain; exact hc7 e rfl hcode
  | ok t =>
    obtain ⟨cs, rs, z⟩ := t
    simp only at hmain
    unfold colamdOrder at hmain
    obtain ⟨i, hi, hmain⟩ := bind_eq_ok.1 hmain
    have hst := initRowsCols_status (nRow := nRow) (nCol := nCol) (b := splitBuffer a p cs rs) (stats := ColamdStats.start) (Or.inl rfl)
    cases i with
    | error e =>
      cases hmain
      rcases hst.2 _ hi with h | h <;> rw [h] at hcode <;> exact absurd hcode (by decide)
    | ok bs =>
      have hf := hst.1 _ hi
      simp only [bind_eq_ok] at hmain
      obtain ⟨s1, _, pf, _, s2, _, p1, _, d1, _, d2, _, hmain⟩ := hmain
      cases hmain
      rcases hf with h | h <;> simp only [h] at hcode <;> exact absurd hcode (by decide)

/-- The hypotheses of the two theorems are met, e.g. by the matrix of the documentation of `colamd`. -/
example : colamdRecommended 11 5 4 = some 82 := by decide +kernel

/-! ## C44 -/

/-- C44 (partial): a non-zero first column pointer is reported with its value. Missing in all `_partial` theorems: negative numbers of rows or
entries and lengths of columns that are not `i32`s, see the theorems about panics below. -/
theorem C44_bad_start_partial (cast : F → Int) (options : ColamdOptions F) (nRow nCol nnz first : Int) (a p : List Int) (h1 : 0 ≤ nRow)
    (h2 : 0 ≤ nCol) (h2' : nCol + 1 < 2 ^ 31) (hp : (p.length : Int) = nCol + 1) (hnnz : p[nCol.toNat]? = some nnz) (h3 : 0 ≤ nnz)
    (h0 : p[0]? = some first) (hfirst : first ≠ 0) :
    colamd cast options nRow nCol a p = .ok (.error (.badStartPointer first), none) := by
  refine colamd_checks_error (e := ⟨0, 0, 0, -6, first, -1, 0⟩) (assertPointers_of h2 h2' hp) ?_
  unfold colamdChecks
  simp only [not_lt.2 h1, if_false, not_lt.2 h2, idx_of hnnz, ok_bind, not_lt.2 h3, idx_of h0]
  rw [if_pos hfirst]
  rfl

/-- C44 (partial): too small a buffer is reported with the required and the actual size. (The required size here is that of the
documentation of COLAMD: twice the entries, one per column, 6 per column record, 4 per row record, one record more than columns and rows.) -/
theorem C44_too_small_partial (cast : F → Int) (options : ColamdOptions F) (nRow nCol nnz : Int) (a p : List Int) (h1 : 0 ≤ nRow)
    (h2 : 0 ≤ nCol) (h2' : nCol + 1 < 2 ^ 31) (hp : (p.length : Int) = nCol + 1) (hnnz : p[nCol.toNat]? = some nnz) (h3 : 0 ≤ nnz)
    (h0 : p[0]? = some 0) (hlen : (a.length : Int) < 2 * nnz + nCol + 6 * (nCol + 1) + 4 * (nRow + 1))
    (hfit : 2 * nnz + nCol + 6 * (nCol + 1) + 4 * (nRow + 1) < 2 ^ 31) :
    colamd cast options nRow nCol a p =
      .ok (.error (.aTooSmall (2 * nnz + nCol + 6 * (nCol + 1) + 4 * (nRow + 1)) a.length), none) := by
  have h := colamd_checks_error (cast := cast) (options := options) (assertPointers_of h2 h2' hp)
    (colamdChecks_small (a := a) h1 (by omega) h2 h2' hnnz h3 (by omega) h0 (by omega))
  rw [h, asI32_of (by omega), asI32_of (by omega)]
  have : ((2 * nnz.toNat + nCol.toNat + 6 * (nCol.toNat + 1) + 4 * (nRow.toNat + 1) : Nat) : Int) =
      2 * nnz + nCol + 6 * (nCol + 1) + 4 * (nRow + 1) := by omega
  rw [this]
  rfl

/-- What the two checks of the entries have in common: the arguments passed the checks before them. -/
structure Spec.PassesSizes (nRow nCol nnz : Int) (a p : List Int) : Prop where
  rows : 0 ≤ nRow ∧ nRow < 2 ^ 31
  cols : 0 ≤ nCol ∧ nCol + 1 < 2 ^ 31
  pointers : (p.length : Int) = nCol + 1
  entries : p[nCol.toNat]? = some nnz ∧ 0 ≤ nnz ∧ nnz < 2 ^ 31
  first : p[0]? = some 0
  length : 2 * nnz + nCol + 6 * (nCol + 1) + 4 * (nRow + 1) ≤ a.length

theorem Spec.PassesSizes.head {nRow nCol nnz : Int} {a p : List Int} (_ : Spec.PassesSizes nRow nCol nnz a p) (m n : Nat) (c : Int) (h0 : 0 ≤ c) :
    (splitBuffer a p m n).head.get c = p.getD c.toNat 0 := by
  conv_lhs => rw [show c = ((c.toNat : Nat) : Int) by omega]
  exact splitBuffer_head _ _ _ _ _

/-- C44 (partial): the first column with a negative length is reported with its length. -/
theorem C44_negative_entries_partial (cast : F → Int) (options : ColamdOptions F) (nRow nCol nnz : Int) (a p : List Int)
    (hs : Spec.PassesSizes nRow nCol nnz a p) (c : Nat) (hc : (c : Int) < nCol) (hdec : p.getD (c + 1) 0 < p.getD c 0)
    (hbefore : ∀ i < c, p.getD i 0 ≤ p.getD (i + 1) 0) (hall : ∀ x ∈ p, x < 2 ^ 31) (hfit : -(2 ^ 31) ≤ p.getD (c + 1) 0 - p.getD c 0) :
    colamd cast options nRow nCol a p = .ok (.error (.negativeEntries c (p.getD (c + 1) 0 - p.getD c 0)), none) := by
  obtain ⟨⟨r0, r1⟩, ⟨c0, c1⟩, hp, ⟨hnnz, z0, z1⟩, hfirst, hlen⟩ := hs
  have hs : Spec.PassesSizes nRow nCol nnz a p := ⟨⟨r0, r1⟩, ⟨c0, c1⟩, hp, ⟨hnnz, z0, z1⟩, hfirst, hlen⟩
  have hchk := colamdChecks_of (a := a) r0 r1 c0 c1 hnnz z0 z1 hfirst (by omega)
  have hget : ∀ i < p.length, p.getD i 0 ∈ p := by
    intro i hi
    rw [List.getD_eq_getElem?_getD, List.getElem?_eq_getElem hi]
    exact List.getElem_mem hi
  have hmono : ∀ i ≤ c, 0 ≤ p.getD i 0 := by
    intro i
    induction i with
    | zero => intro _; simp [List.getD_eq_getElem?_getD, hfirst]
    | succ i ih => intro hi; exact le_trans (ih (by omega)) (hbefore i (by omega))
  obtain ⟨s1, s2, s3, s4⟩ := splitBuffer_sizes a p nCol.toNat nRow.toNat
  set b := splitBuffer a p (6 * (nCol.toNat + 1)) (4 * (nRow.toNat + 1)) with hb
  have hhead : ∀ i : Int, 0 ≤ i → b.head.get i = p.getD i.toNat 0 := fun i hi => hs.head _ _ i hi
  have hloop : ∃ e, foldC (initColumn ColamdStats.start b.head) (span 0 nCol.toNat) b.cols = .ok (.error e) ∧
      e.status = -8 ∧ e.info1 = c ∧ e.info2 = p.getD (c + 1) 0 - p.getD c 0 := by
    have hsplit := span_split 0 nCol c (by omega) hc
    rw [sub_zero] at hsplit
    rw [hsplit]
    refine foldC_leaves (fun cs : Mem ColamdCol => cs.size = b.cols.size) _ _ _ _ _ _ rfl ?_ ?_
    · intro cs x hx hcs
      rw [mem_span] at hx
      refine ⟨_, initColumn_of hx.1 (by omega) (by omega) ?_ ?_, hcs⟩
      · rw [hhead x hx.1, hhead (x + 1) (by omega), show (x + 1).toNat = x.toNat + 1 by omega]
        exact hbefore _ (by omega)
      · rw [hhead x hx.1, hhead (x + 1) (by omega)]
        have := hall _ (hget (x + 1).toNat (by omega))
        have := hmono x.toNat (by omega)
        omega
    · intro cs hcs
      have e1 : b.head.get (c : Int) = p.getD c 0 := by rw [hhead _ (by omega), Int.toNat_natCast]
      have e2 : b.head.get ((c : Int) + 1) = p.getD (c + 1) 0 := by
        rw [hhead _ (by omega)]; congr 1
      refine ⟨_, initColumn_negative (by omega) (by omega) (by omega) (by omega), rfl, rfl, ?_⟩
      rw [e1, e2]
  obtain ⟨e, he, e1, e2, e3⟩ := hloop
  have hinit : initRowsCols nRow nCol b ColamdStats.start = .ok (.error e) := by
    unfold initRowsCols
    rw [if_neg (by omega), he, ok_bind]
    rfl
  rw [colamd_init_error (assertPointers_of c0 c1 hp) hchk hinit]
  simp [statsToResult, e1, e2, e3, Except.map]

/-- C44 (partial): the first row index out of range is reported with its column and the number of rows. -/
theorem C44_row_out_of_bounds_partial (cast : F → Int) (options : ColamdOptions F) (nRow nCol nnz : Int) (a p : List Int)
    (hs : Spec.PassesSizes nRow nCol nnz a p) (hmono : ∀ i : Nat, (i : Int) < nCol → p.getD i 0 ≤ p.getD (i + 1) 0)
    (c q : Nat) (hc : (c : Int) < nCol) (hq : p.getD c 0 ≤ q) (hq' : (q : Int) < p.getD (c + 1) 0)
    (hbad : a.getD q 0 < 0 ∨ nRow ≤ a.getD q 0) (hbefore : ∀ i < q, 0 ≤ a.getD i 0 ∧ a.getD i 0 < nRow) :
    colamd cast options nRow nCol a p = .ok (.error (.rowOutOfBounds c (a.getD q 0) nRow), none) := by
  obtain ⟨⟨r0, r1⟩, ⟨c0, c1⟩, hp, ⟨hnnz, z0, z1⟩, hfirst, hlen⟩ := hs
  have hs : Spec.PassesSizes nRow nCol nnz a p := ⟨⟨r0, r1⟩, ⟨c0, c1⟩, hp, ⟨hnnz, z0, z1⟩, hfirst, hlen⟩
  have hchk := colamdChecks_of (a := a) r0 r1 c0 c1 hnnz z0 z1 hfirst (by omega)
  have hpos : ∀ i : Nat, (i : Int) ≤ nCol → 0 ≤ p.getD i 0 := by
    intro i
    induction i with
    | zero => intro _; simp [List.getD_eq_getElem?_getD, hfirst]
    | succ i ih => intro hi; exact le_trans (ih (by omega)) (hmono i (by omega))
  have hle : ∀ d i : Nat, (i + d : Int) ≤ nCol → p.getD i 0 ≤ p.getD (i + d) 0 := by
    intro d
    induction d with
    | zero => intro i _; exact le_refl _
    | succ d ih =>
      intro i hi
      push_cast at hi
      exact le_trans (ih i (by omega)) (hmono (i + d) (by push_cast; omega))
  have hend : ∀ i : Nat, (i : Int) ≤ nCol → p.getD i 0 ≤ nnz := by
    intro i hi
    have := hle (nCol.toNat - i) i (by omega)
    rw [show i + (nCol.toNat - i) = nCol.toNat by omega] at this
    rwa [List.getD_eq_getElem?_getD (i := nCol.toNat), hnnz] at this
  obtain ⟨s1, s2, s3, s4⟩ := splitBuffer_sizes a p nCol.toNat nRow.toNat
  set b := splitBuffer a p (6 * (nCol.toNat + 1)) (4 * (nRow.toNat + 1)) with hb
  have hhead : ∀ i : Int, 0 ≤ i → b.head.get i = p.getD i.toNat 0 := fun i hi => hs.head _ _ i hi
  have hA : ∀ i : Nat, (i : Int) < nnz → b.a.get i = a.getD i 0 := fun i hi => splitBuffer_a _ _ _ _ _ (by omega)
  have hmono' : ∀ x : Int, 0 ≤ x → x < nCol → b.head.get x ≤ b.head.get (x + 1) := by
    intro x h0 h1
    rw [hhead x h0, hhead (x + 1) (by omega), show (x + 1).toNat = x.toNat + 1 by omega]
    exact hmono _ (by omega)
  obtain ⟨cols, hcols, hcsz, _⟩ := initColumns_of ColamdStats.start b.head b.cols nCol.toNat (by omega) (by omega)
    (fun x h0 h1 => hmono' x h0 (by omega)) (by
      intro x h0 h1
      rw [hhead x h0, hhead (x + 1) (by omega)]
      have := hend (x + 1).toNat (by omega)
      have := hpos x.toNat (by omega)
      omega)
  obtain ⟨rows, hrows, hrsz, _⟩ := initRows_of b.rows nRow.toNat (by omega) (fun r => { r with length := 0, mark := -1 })
  have e1 : b.head.get (c : Int) = p.getD c 0 := by rw [hhead _ (by omega), Int.toNat_natCast]
  have e2 : b.head.get ((c : Int) + 1) = p.getD (c + 1) 0 := by rw [hhead _ (by omega)]; congr 1
  have q1 := hend (c + 1) (by push_cast; omega)
  have q0 := hpos c (by omega)
  have hloop : ∃ e, foldC (scanColumn nRow b.a b.head) (span 0 nCol.toNat) ⟨rows, cols, { ColamdStats.start with info3 := 0 }, -1⟩ =
      .ok (.error e) ∧ e.status = -9 ∧ e.info1 = c ∧ e.info2 = a.getD q 0 ∧ e.info3 = nRow := by
    have hsplit := span_split 0 nCol c (by omega) hc
    rw [sub_zero] at hsplit
    rw [hsplit]
    have hslice : ∀ x : Int, 0 ≤ x → x < nCol → b.a.slice (b.head.get x) (b.head.get (x + 1)) =
        .ok ((List.range (b.head.get (x + 1) - b.head.get x).toNat).map (fun i : Nat => b.a.get (b.head.get x + i))) := by
      intro x h0 h1
      have f1 := hend (x + 1).toNat (by omega)
      have f2 := hpos x.toNat (by omega)
      refine Mem.slice_of ?_ (hmono' x h0 h1) ?_
      · rw [hhead x h0]; exact f2
      · rw [hhead (x + 1) (by omega)]; omega
    have hentries : ∀ x : Int, 0 ≤ x → x < nCol → ∀ s : ColumnScan, s.rows.size = b.rows.size ∧ s.cols.size = b.cols.size →
        scanColumn nRow b.a b.head s x = foldC (scanEntry nRow x)
          ((List.range (b.head.get (x + 1) - b.head.get x).toNat).map (fun i : Nat => b.a.get (b.head.get x + i))) { s with lastRow := -1 } := by
      intro x h0 h1 s _
      unfold scanColumn
      rw [Mem.read_of h0 (by omega), ok_bind, Mem.read_of (by omega) (by omega), ok_bind, hslice x h0 h1, ok_bind]
    refine foldC_leaves (fun s : ColumnScan => s.rows.size = b.rows.size ∧ s.cols.size = b.cols.size) _ _ _ _ _ _ ⟨hrsz, hcsz⟩ ?_ ?_
    · intro s x hx hsz
      rw [mem_span] at hx
      rw [hentries x hx.1 (by omega) s hsz]
      refine foldC_of (fun s : ColumnScan => s.rows.size = b.rows.size ∧ s.cols.size = b.cols.size) _ _ { s with lastRow := -1 } hsz ?_
      intro s' row hrow hsz'
      rw [List.mem_map] at hrow
      obtain ⟨i, hi, rfl⟩ := hrow
      rw [List.mem_range] at hi
      have f0 : 0 ≤ b.head.get x := by rw [hhead x hx.1]; exact hpos _ (by omega)
      have f1 : b.head.get (x + 1) ≤ b.head.get c := by
        rw [hhead (x + 1) (by omega), e1]
        have := hle (c - (x + 1).toNat) (x + 1).toNat (by omega)
        rwa [show (x + 1).toNat + (c - (x + 1).toNat) = c by omega] at this
      have f2 : b.a.get (b.head.get x + i) = a.getD (b.head.get x + i).toNat 0 := by
        rw [← hA _ (by omega)]; congr 1; omega
      rw [f2]
      have f3 := hbefore (b.head.get x + i).toNat (by omega)
      obtain ⟨s2, g1, g2, g3⟩ := scanEntry_of (col := x) (s := s') f3.1 f3.2 (by omega) hx.1 (by omega)
      exact ⟨s2, g1, by rw [g2, g3]; exact hsz'⟩
    · intro s hsz
      rw [hentries c (by omega) hc s hsz]
      have hlist : (List.range (b.head.get ((c : Int) + 1) - b.head.get c).toNat).map (fun i : Nat => b.a.get (b.head.get c + i)) =
          (List.range (q - b.head.get c).toNat).map (fun i : Nat => b.a.get (b.head.get c + i)) ++
            a.getD q 0 :: (List.range (b.head.get ((c : Int) + 1) - (q + 1)).toNat).map (fun i : Nat => b.a.get (q + 1 + i)) := by
        have := congrArg (List.map b.a.get) (span_split (b.head.get c) (b.head.get ((c : Int) + 1)) q (by omega) (by omega))
        rw [List.map_append, List.map_cons, hA q (by omega)] at this
        simp only [span, List.map_map, Function.comp_def] at this
        exact this
      rw [hlist]
      refine foldC_leaves (fun s : ColumnScan => s.rows.size = b.rows.size ∧ s.cols.size = b.cols.size) _ _ _ _ _
        { s with lastRow := -1 } hsz ?_ ?_
      · intro s' row hrow hsz'
        rw [List.mem_map] at hrow
        obtain ⟨i, hi, rfl⟩ := hrow
        rw [List.mem_range] at hi
        have f2 : b.a.get (b.head.get c + i) = a.getD (b.head.get c + i).toNat 0 := by
          rw [← hA _ (by omega)]; congr 1; omega
        rw [f2]
        have f3 := hbefore (b.head.get c + i).toNat (by omega)
        obtain ⟨s2, g1, g2, g3⟩ := scanEntry_of (col := c) (s := s') f3.1 f3.2 (by omega) (by omega) (by omega)
        exact ⟨s2, g1, by rw [g2, g3]; exact hsz'⟩
      · intro s' _
        exact ⟨_, scanEntry_bad hbad, rfl, rfl, rfl, rfl⟩
  obtain ⟨e, he, g1, g2, g3, g4⟩ := hloop
  have hinit : initRowsCols nRow nCol b ColamdStats.start = .ok (.error e) := by
    unfold initRowsCols
    rw [if_neg (by omega), hcols, ok_bind]
    simp only [hrows, ok_bind]
    rw [he, ok_bind]
    rfl
  rw [colamd_init_error (assertPointers_of c0 c1 hp) hchk hinit]
  simp [statsToResult, g1, g2, g3, g4, Except.map]

/-- C44, negation: a negative number of rows is a panic (`unreachable!`), not an `Err`. -/
theorem C44_negative_rows_panics (cast : F → Int) (options : ColamdOptions F) (nRow nCol : Int) (a p : List Int) (h1 : nRow < 0)
    (h2 : 0 ≤ nCol) (h2' : nCol + 1 < 2 ^ 31) (hp : (p.length : Int) = nCol + 1) :
    colamd cast options nRow nCol a p = .error .unreachable := by
  rw [colamd_checks_error (e := ⟨0, 0, 0, -3, nRow, -1, 0⟩) (assertPointers_of h2 h2' hp)]
  · rfl
  · unfold colamdChecks
    simp only [h1, if_true]
    rfl

/-- C44, negation: a negative last column pointer (number of entries) is a panic (`unreachable!`), not an `Err`. -/
theorem C44_negative_nnz_panics (cast : F → Int) (options : ColamdOptions F) (nRow nCol nnz : Int) (a p : List Int) (h1 : 0 ≤ nRow)
    (h2 : 0 ≤ nCol) (h2' : nCol + 1 < 2 ^ 31) (hp : (p.length : Int) = nCol + 1) (hnnz : p[nCol.toNat]? = some nnz) (h3 : nnz < 0) :
    colamd cast options nRow nCol a p = .error .unreachable := by
  rw [colamd_checks_error (e := ⟨0, 0, 0, -5, nnz, -1, 0⟩) (assertPointers_of h2 h2' hp)]
  · rfl
  · unfold colamdChecks
    simp only [not_lt.2 h1, if_false, not_lt.2 h2, idx_of hnnz, ok_bind, h3, if_true]
    rfl

/-- C44, negation: a column whose negative length is not an `i32` is an overflow (a panic with overflow checks), not an `Err`. Here
the columns pointers are `0, 5, i32::MIN, 7`. -/
theorem C44_overflow_panics (cast : F → Int) (options : ColamdOptions F) :
    colamd cast options 1 3 (List.replicate 100 0) [0, 5, -2147483648, 7] = .error .overflow := by
  have h1 : colamdChecks 1 3 (List.replicate 100 0) [0, 5, -2147483648, 7] = .ok (.ok (24, 8, 7)) := by decide +kernel
  have h2 : initRowsCols 1 3 (splitBuffer (List.replicate 100 0) [0, 5, -2147483648, 7] 24 8) ColamdStats.start = .error .overflow := by
    have h3 : ∀ cols : Mem ColamdCol, cols.size = 4 → foldC (initColumn ColamdStats.start (Mem.ofList [0, 5, -2147483648, 7] 0)) (span 0 3) cols =
        .error .overflow := by
      intro cols hc
      have e : span 0 3 = [0, 1, 2] := by decide
      rw [e, foldC, initColumn_of (by decide) (by decide) (by rw [hc]; decide) (by decide) (by decide), ok_bind]
      simp only [foldC, initColumn]
      rw [Mem.read_of (by decide) (by decide), ok_bind, Mem.read_of (by decide) (by decide), ok_bind]
      rfl
    unfold initRowsCols
    rw [if_neg (by decide)]
    have := h3 (splitBuffer (List.replicate 100 0) [0, 5, -2147483648, 7] 24 8).cols (by decide)
    change (foldC (initColumn ColamdStats.start (Mem.ofList [0, 5, -2147483648, 7] 0)) (span 0 3) _ >>= _) = _
    rw [this]
    rfl
  unfold colamd
  rw [assertPointers_of (by decide) (by decide) (by decide), ok_bind]
  unfold colamdMain
  rw [h1, ok_bind]
  simp only
  unfold colamdOrder
  rw [h2]
  rfl

/-- The hypotheses of the theorems about `Err` are met: the cases of the unit test `errors` of `status.rs`. -/
example : colamd (fun _ => 16) (⟨10, 10, true⟩ : ColamdOptions ℝ) 4 3 (List.replicate 57 0) [2, 2, 3, 5] =
    .ok (.error (.badStartPointer 2), none) :=
  C44_bad_start_partial _ _ 4 3 5 2 _ _ (by norm_num) (by norm_num) (by norm_num) rfl rfl (by norm_num) rfl (by norm_num)

example : colamd (fun _ => 16) (⟨10, 10, true⟩ : ColamdOptions ℝ) 4 3 [] [0, 2, 3, 5] = .ok (.error (.aTooSmall 57 0), none) :=
  C44_too_small_partial _ _ 4 3 5 _ _ (by norm_num) (by norm_num) (by norm_num) rfl rfl (by norm_num) rfl (by norm_num) (by norm_num)

example : colamd (fun _ => 16) (⟨10, 10, true⟩ : ColamdOptions ℝ) 4 3 (List.replicate 57 0) [0, 2, 0, 5] =
    .ok (.error (.negativeEntries 1 (-2)), none) :=
  C44_negative_entries_partial _ _ 4 3 5 _ _
    ⟨by norm_num, by norm_num, rfl, ⟨rfl, by norm_num⟩, rfl, by simp⟩ 1 (by norm_num) (by decide)
    (by intro i hi; interval_cases i; decide) (by decide) (by decide)

example : colamd (fun _ => 16) (⟨10, 10, true⟩ : ColamdOptions ℝ) 4 3 ([0, 1, 1, 10, 2] ++ List.replicate 52 0) [0, 2, 3, 5] =
    .ok (.error (.rowOutOfBounds 2 10 4), none) :=
  C44_row_out_of_bounds_partial _ _ 4 3 5 _ _
    ⟨by norm_num, by norm_num, rfl, ⟨rfl, by norm_num⟩, rfl, by simp⟩
    (by intro i hi; have : i < 3 := by omega
        interval_cases i <;> decide) 2 3 (by norm_num) (by decide) (by decide) (by decide)
    (by intro i hi; interval_cases i <;> decide)

end Fiksi
