import Verif.Proofs.ColamdSizes
/-! # The checks of the arguments of `colamd` -/
namespace Fiksi

variable {σ α : Type}

theorem foldC_append (f : σ → α → R (Except ColamdStats σ)) (l l' : List α) (s s' : σ) (h : foldC f l s = .ok (.ok s')) :
    foldC f (l ++ l') s = foldC f l' s' := by
  induction l generalizing s with
  | nil => simp only [foldC] at h; cases h; rfl
  | cons a l ih =>
    rw [List.cons_append, foldC]
    rw [foldC] at h
    obtain ⟨r, h1, h2⟩ := bind_eq_ok.1 h
    rw [h1, ok_bind]
    cases r with
    | error e => cases h2
    | ok s1 => exact ih s1 h2

theorem foldC_of (P : σ → Prop) (f : σ → α → R (Except ColamdStats σ)) (l : List α) (s : σ) (hP : P s)
    (h : ∀ s a, a ∈ l → P s → ∃ s', f s a = .ok (.ok s') ∧ P s') : ∃ s', foldC f l s = .ok (.ok s') ∧ P s' := by
  induction l generalizing s with
  | nil => exact ⟨s, rfl, hP⟩
  | cons a l ih =>
    obtain ⟨s1, h1, h2⟩ := h s a (by simp) hP
    obtain ⟨s2, h3, h4⟩ := ih s1 h2 (fun s a ha => h s a (by simp [ha]))
    exact ⟨s2, by rw [foldC, h1, ok_bind]; exact h3, h4⟩

/-- A loop that leaves at `a`. -/
theorem foldC_leaves (P : σ → Prop) (E : ColamdStats → Prop) (f : σ → α → R (Except ColamdStats σ)) (pre post : List α) (a : α) (s : σ)
    (hP : P s) (h : ∀ s x, x ∈ pre → P s → ∃ s', f s x = .ok (.ok s') ∧ P s') (ha : ∀ s, P s → ∃ e, f s a = .ok (.error e) ∧ E e) :
    ∃ e, foldC f (pre ++ a :: post) s = .ok (.error e) ∧ E e := by
  obtain ⟨s1, h1, h2⟩ := foldC_of P f pre s hP h
  obtain ⟨e, h3, h4⟩ := ha s1 h2
  refine ⟨e, ?_, h4⟩
  rw [foldC_append _ _ _ _ _ h1, foldC, h3, ok_bind]
  rfl

theorem span_split (start stop x : Int) (h1 : start ≤ x) (h2 : x < stop) :
    span start (stop - start).toNat = span start (x - start).toNat ++ x :: span (x + 1) (stop - (x + 1)).toNat := by
  obtain ⟨n, rfl⟩ : ∃ n : Nat, x = start + n := ⟨(x - start).toNat, by omega⟩
  clear h1
  induction n generalizing start with
  | zero =>
    simp only [Nat.cast_zero, add_zero, sub_self, Int.toNat_zero, span_zero, List.nil_append] at h2 ⊢
    rw [show (stop - start).toNat = (stop - (start + 1)).toNat + 1 by omega, span_cons]
  | succ n ih =>
    rw [show (stop - start).toNat = (stop - (start + 1)).toNat + 1 by omega, span_cons,
      show (start + ((n + 1 : Nat) : Int) - start).toNat = n + 1 by omega, span_cons, List.cons_append]
    have := ih (start + 1) (by push_cast at h2 ⊢; omega)
    rw [show start + 1 + (n : Int) - (start + 1) = n by ring, Int.toNat_natCast] at this
    rw [this]
    simp only [List.cons.injEq, true_and]
    congr 1
    rw [show start + 1 + (n : Int) = start + ((n + 1 : Nat) : Int) by push_cast; ring]

/-- The column pointers are `i32`s. -/
def AllI32 (p : List Int) : Prop := ∀ x ∈ p, -(2 ^ 31) ≤ x ∧ x < 2 ^ 31

theorem asI32_of {n : Nat} (h : n < 2 ^ 31) : asI32 n = n := by
  unfold asI32
  rw [Nat.mod_eq_of_lt (by omega)]
  push_cast
  ring

theorem assertPointers_of {n : Int} {p : List Int} (h0 : 0 ≤ n) (h1 : n + 1 < 2 ^ 31) (h : (p.length : Int) = n + 1) :
    assertPointers n p = .ok () := by
  have h2 : (0 : Int) ≤ n + 1 := by omega
  simp only [assertPointers, if_pos h1, usizeOf, if_pos h2, unwrap, ok_bind]
  rw [if_pos (by omega)]
  rfl

section
variable {F : Type} [Mul F] [Zero F] [FloatOps F]

theorem colamd_checks_error {cast : F → Int} {options : ColamdOptions F} {nRow nCol : Int} {a p : List Int} {e : ColamdStats}
    (hp : assertPointers nCol p = .ok ()) (h : colamdChecks nRow nCol a p = .ok (.error e)) :
    colamd cast options nRow nCol a p = (statsToResult e).map (fun r => (r, none)) := by
  unfold colamd
  rw [hp, ok_bind]
  unfold colamdMain
  rw [h, ok_bind]
  simp only [pure_eq_ok, ok_bind]
  cases statsToResult e <;> rfl

theorem colamd_init_error {cast : F → Int} {options : ColamdOptions F} {nRow nCol : Int} {a p : List Int} {colSize rowSize : Nat} {nnz : Int}
    {e : ColamdStats} (hp : assertPointers nCol p = .ok ()) (h : colamdChecks nRow nCol a p = .ok (.ok (colSize, rowSize, nnz)))
    (he : initRowsCols nRow nCol (splitBuffer a p colSize rowSize) ColamdStats.start = .ok (.error e)) :
    colamd cast options nRow nCol a p = (statsToResult e).map (fun r => (r, none)) := by
  unfold colamd
  rw [hp, ok_bind]
  unfold colamdMain
  rw [h, ok_bind]
  simp only
  unfold colamdOrder
  rw [he, ok_bind]
  simp only [pure_eq_ok, ok_bind]
  cases statsToResult e <;> rfl

end

/-- The arguments pass the first checks. -/
theorem colamdChecks_of {nRow nCol : Int} {a p : List Int} {nnz : Int} (h1 : 0 ≤ nRow) (h1' : nRow < 2 ^ 31) (h2 : 0 ≤ nCol)
    (h2' : nCol + 1 < 2 ^ 31) (hnnz : p[nCol.toNat]? = some nnz) (h3 : 0 ≤ nnz) (h3' : nnz < 2 ^ 31) (h0 : p[0]? = some 0)
    (hlen : 2 * nnz.toNat + nCol.toNat + 6 * (nCol.toNat + 1) + 4 * (nRow.toNat + 1) ≤ a.length) :
    colamdChecks nRow nCol a p = .ok (.ok (6 * (nCol.toNat + 1), 4 * (nRow.toNat + 1), nnz)) := by
  unfold colamdChecks
  simp only [not_lt.2 h1, if_false, not_lt.2 h2, idx_of hnnz, ok_bind, not_lt.2 h3, idx_of h0, ne_eq, not_true_eq_false]
  rw [colamdSizes_of (by omega) (by omega) (by omega)]
  simp only [not_lt.2 hlen, if_false]
  rfl

theorem colamdChecks_small {nRow nCol : Int} {a p : List Int} {nnz : Int} (h1 : 0 ≤ nRow) (h1' : nRow < 2 ^ 31) (h2 : 0 ≤ nCol)
    (h2' : nCol + 1 < 2 ^ 31) (hnnz : p[nCol.toNat]? = some nnz) (h3 : 0 ≤ nnz) (h3' : nnz < 2 ^ 31) (h0 : p[0]? = some 0)
    (hlen : a.length < 2 * nnz.toNat + nCol.toNat + 6 * (nCol.toNat + 1) + 4 * (nRow.toNat + 1)) :
    colamdChecks nRow nCol a p = .ok (.error ⟨0, 0, 0, -7,
      asI32 (2 * nnz.toNat + nCol.toNat + 6 * (nCol.toNat + 1) + 4 * (nRow.toNat + 1)), asI32 a.length, 0⟩) := by
  unfold colamdChecks
  simp only [not_lt.2 h1, if_false, not_lt.2 h2, idx_of hnnz, ok_bind, not_lt.2 h3, idx_of h0, ne_eq, not_true_eq_false]
  rw [colamdSizes_of (by omega) (by omega) (by omega)]
  simp only [hlen, if_true]
  rfl

/-! ## `init_rows_cols` -/

theorem subI32_of {a b : Int} (h : -(2 ^ 31) ≤ a - b) (h' : a - b < 2 ^ 31) : subI32 a b = .ok (a - b) := by
  unfold subI32
  rw [if_pos ⟨h, h'⟩]

theorem initColumn_of {stats : ColamdStats} {p : Mem Int} {cols : Mem ColamdCol} {col : Int} (h0 : 0 ≤ col) (h1 : col + 1 < p.size)
    (h2 : col < cols.size) (h3 : p.get col ≤ p.get (col + 1)) (h4 : p.get (col + 1) - p.get col < 2 ^ 31) :
    initColumn stats p cols col = .ok (.ok (cols.put col ⟨p.get col, p.get (col + 1) - p.get col, 1, 0, -1, -1⟩)) := by
  unfold initColumn
  rw [Mem.read_of h0 (by omega), ok_bind, Mem.read_of (by omega) h1, ok_bind, subI32_of (by omega) h4, ok_bind, if_neg (by omega),
    Mem.write_of _ h0 h2]
  rfl

theorem initColumn_negative {stats : ColamdStats} {p : Mem Int} {cols : Mem ColamdCol} {col : Int} (h0 : 0 ≤ col) (h1 : col + 1 < p.size)
    (h3 : p.get (col + 1) < p.get col) (h4 : -(2 ^ 31) ≤ p.get (col + 1) - p.get col) :
    initColumn stats p cols col = .ok (.error { stats with status := -8, info1 := col, info2 := p.get (col + 1) - p.get col }) := by
  unfold initColumn
  rw [Mem.read_of h0 (by omega), ok_bind, Mem.read_of (by omega) h1, ok_bind, subI32_of h4 (by omega), ok_bind, if_pos (by omega)]
  rfl

theorem scanEntry_of {nRow col : Int} {s : ColumnScan} {row : Int} (h0 : 0 ≤ row) (h1 : row < nRow) (h2 : nRow ≤ s.rows.size)
    (h3 : 0 ≤ col) (h4 : col < s.cols.size) :
    ∃ s', scanEntry nRow col s row = .ok (.ok s') ∧ s'.rows.size = s.rows.size ∧ s'.cols.size = s.cols.size := by
  unfold scanEntry
  rw [if_neg (by omega), Mem.read_of h0 (by omega), ok_bind]
  simp only
  split
  · rw [Mem.write_of _ h0 (by omega), ok_bind]
    exact ⟨_, rfl, rfl, rfl⟩
  · rw [Mem.modify_of _ h3 h4, ok_bind, Mem.write_of _ h0 (by omega), ok_bind]
    exact ⟨_, rfl, rfl, rfl⟩

theorem scanEntry_bad {nRow col : Int} {s : ColumnScan} {row : Int} (h : row < 0 ∨ nRow ≤ row) :
    scanEntry nRow col s row = .ok (.error { s.stats with status := -9, info1 := col, info2 := row, info3 := nRow }) := by
  unfold scanEntry
  rw [if_pos h]
  rfl

/-- The buffers after the split. -/
theorem splitBuffer_sizes (a p : List Int) (nCol nRow : Nat) :
    (splitBuffer a p (6 * (nCol + 1)) (4 * (nRow + 1))).rows.size = nRow + 1 ∧
      (splitBuffer a p (6 * (nCol + 1)) (4 * (nRow + 1))).cols.size = nCol + 1 ∧
      (splitBuffer a p (6 * (nCol + 1)) (4 * (nRow + 1))).a.size = a.length - (6 * (nCol + 1) + 4 * (nRow + 1)) ∧
      (splitBuffer a p (6 * (nCol + 1)) (4 * (nRow + 1))).head.size = p.length := by
  refine ⟨?_, ?_, ?_, rfl⟩
  · exact Nat.mul_div_cancel_left _ (by norm_num)
  · exact Nat.mul_div_cancel_left _ (by norm_num)
  · simp only [splitBuffer, Mem.ofList_size, List.length_take]
    omega

theorem splitBuffer_head (a p : List Int) (m n i : Nat) : (splitBuffer a p m n).head.get i = p.getD i 0 := Mem.ofList_get _ _ _

theorem splitBuffer_a (a p : List Int) (m n i : Nat) (h : i < a.length - (m + n)) : (splitBuffer a p m n).a.get i = a.getD i 0 := by
  simp only [splitBuffer]
  rw [Mem.ofList_get]
  simp only [List.getD_eq_getElem?_getD, List.getElem?_take]
  rw [if_pos h]

/-- The first loop of `init_rows_cols` on increasing column pointers. -/
theorem initColumns_of (stats : ColamdStats) (p : Mem Int) (cols : Mem ColamdCol) (n : Nat) (h1 : (n : Int) < p.size) (h2 : n ≤ cols.size)
    (hmono : ∀ c : Int, 0 ≤ c → c < n → p.get c ≤ p.get (c + 1)) (hlt : ∀ c : Int, 0 ≤ c → c < n → p.get (c + 1) - p.get c < 2 ^ 31) :
    ∃ cols', foldC (initColumn stats p) (span 0 n) cols = .ok (.ok cols') ∧ cols'.size = cols.size ∧
      ∀ c : Int, cols'.get c = if 0 ≤ c ∧ c < n then ⟨p.get c, p.get (c + 1) - p.get c, 1, 0, -1, -1⟩ else cols.get c := by
  have h := foldC_span (σ := Mem ColamdCol)
    (fun x cs => cs.size = cols.size ∧ ∀ c : Int, cs.get c = if 0 ≤ c ∧ c < x then ⟨p.get c, p.get (c + 1) - p.get c, 1, 0, -1, -1⟩ else cols.get c)
    (fun _ => False) (initColumn stats p) 0 n n (by omega) cols ⟨rfl, fun c => by rw [if_neg (by omega)]⟩ (by
      rintro x hx hx' cs ⟨hsz, hcs⟩
      left
      refine ⟨_, initColumn_of hx (by omega) (by omega) (hmono x hx hx') (hlt x hx hx'), hsz, fun c => ?_⟩
      rw [Mem.put_get]
      by_cases hc : c = x
      · subst hc; rw [if_pos rfl, if_pos (by omega)]
      · rw [if_neg hc, hcs c]
        by_cases hc' : 0 ≤ c ∧ c < x
        · rw [if_pos hc', if_pos (by omega)]
        · rw [if_neg hc', if_neg (by omega)])
  rcases h with h | ⟨e, _, he⟩
  · exact h
  · exact he.elim

/-- The initialization of the rows. -/
theorem initRows_of (rows : Mem ColamdRow) (n : Nat) (h : n ≤ rows.size) (f : ColamdRow → ColamdRow) :
    ∃ rows', (span 0 n).foldlM (fun rows row => rows.modify row f) rows = .ok rows' ∧ rows'.size = rows.size ∧
      ∀ r : Int, rows'.get r = if 0 ≤ r ∧ r < n then f (rows.get r) else rows.get r := by
  refine foldlM_span (fun x rs => rs.size = rows.size ∧ ∀ r : Int, rs.get r = if 0 ≤ r ∧ r < x then f (rows.get r) else rows.get r)
    _ 0 n n (by omega) rows ⟨rfl, fun r => by rw [if_neg (by omega)]⟩ ?_
  rintro x hx hx' rs ⟨hsz, hrs⟩
  refine ⟨_, Mem.modify_of _ hx (by omega), hsz, fun r => ?_⟩
  rw [Mem.put_get]
  by_cases hr : r = x
  · subst hr; rw [if_pos rfl, if_pos (by omega), hrs, if_neg (by omega)]
  · rw [if_neg hr, hrs r]
    by_cases hr' : 0 ≤ r ∧ r < x
    · rw [if_pos hr', if_pos (by omega)]
    · rw [if_neg hr', if_neg (by omega)]

end Fiksi
