import Verif.Model.ColamdApi
import Verif.Proofs.Memory
import Mathlib.Tactic.Ring
/-! # The sizes of the workspace of `colamd` -/
namespace Fiksi

theorem checkedAdd64_eq {a b c : Nat} : checkedAdd64 a b = some c ↔ a + b < 2 ^ 64 ∧ c = a + b := by
  unfold checkedAdd64
  by_cases h : a + b < 2 ^ 64
  · rw [if_pos h]; simp only [Option.some.injEq, h, true_and]; exact eq_comm
  · rw [if_neg h]; simp only [reduceCtorEq, h, false_and]

theorem checkedMul64_eq {a b c : Nat} : checkedMul64 a b = some c ↔ a * b < 2 ^ 64 ∧ c = a * b := by
  unfold checkedMul64
  by_cases h : a * b < 2 ^ 64
  · rw [if_pos h]; simp only [Option.some.injEq, h, true_and]; exact eq_comm
  · rw [if_neg h]; simp only [reduceCtorEq, h, false_and]

theorem recordSize_eq {n fields c : Nat} (h : recordSize n fields = some c) : c = fields * (n + 1) := by
  simp only [recordSize, Option.bind_eq_bind, Option.bind_eq_some_iff, checkedAdd64_eq, checkedMul64_eq, Option.some.injEq] at h
  obtain ⟨a, ⟨_, rfl⟩, b, ⟨_, rfl⟩, rfl⟩ := h
  rw [show (n + 1) * (4 * fields) = 4 * (fields * (n + 1)) by ring]
  exact Nat.mul_div_cancel_left _ (by norm_num)

theorem recordSize_of {n fields : Nat} (hn : n < 2 ^ 31) (hf : fields ≤ 6) : recordSize n fields = some (fields * (n + 1)) := by
  have h1 : n + 1 < 2 ^ 64 := by omega
  have h2 : (n + 1) * (4 * fields) < 2 ^ 64 := by
    have : (n + 1) * (4 * fields) ≤ 2 ^ 31 * 24 := Nat.mul_le_mul (by omega) (by omega)
    omega
  simp only [recordSize, checkedAdd64, if_pos h1, checkedMul64, Option.bind_eq_bind, Option.bind_some, if_pos h2, Option.some.injEq]
  rw [show (n + 1) * (4 * fields) = 4 * (fields * (n + 1)) by ring]
  exact Nat.mul_div_cancel_left _ (by norm_num)

/-- The recommended size. -/
theorem colamdRecommended_eq {nnz nRow nCol : Int} {len : Nat} (h : colamdRecommended nnz nRow nCol = some len) :
    0 ≤ nnz ∧ 0 ≤ nRow ∧ 0 ≤ nCol ∧
      len = 2 * nnz.toNat + 6 * (nCol.toNat + 1) + 4 * (nRow.toNat + 1) + nCol.toNat + nnz.toNat / 5 := by
  simp only [colamdRecommended, Option.bind_eq_bind, Option.bind_eq_some_iff, checkedAdd64_eq, checkedMul64_eq] at h
  obtain ⟨z, hz, r, hr, c, hc, cs, hcs, rs, hrs, s, ⟨_, rfl⟩, s, ⟨_, rfl⟩, s, ⟨_, rfl⟩, s, ⟨_, rfl⟩, _, rfl⟩ := h
  have key : ∀ (x : Int) (n : Nat), usizeOf x = some n → 0 ≤ x ∧ n = x.toNat := by
    intro x n hx
    unfold usizeOf at hx
    split at hx
    · rename_i h0; exact ⟨h0, by simpa using hx.symm⟩
    · simp at hx
  obtain ⟨h1, rfl⟩ := key _ _ hz
  obtain ⟨h2, rfl⟩ := key _ _ hr
  obtain ⟨h3, rfl⟩ := key _ _ hc
  rw [recordSize_eq hcs, recordSize_eq hrs]
  exact ⟨h1, h2, h3, by omega⟩

theorem colamdRecommended_of {nnz nRow nCol : Int} (h1 : 0 ≤ nnz) (h1' : nnz < 2 ^ 31) (h2 : 0 ≤ nRow) (h2' : nRow < 2 ^ 31)
    (h3 : 0 ≤ nCol) (h3' : nCol < 2 ^ 31) :
    colamdRecommended nnz nRow nCol =
      some (2 * nnz.toNat + 6 * (nCol.toNat + 1) + 4 * (nRow.toNat + 1) + nCol.toNat + nnz.toNat / 5) := by
  have e1 : nnz.toNat < 2 ^ 31 := by omega
  have e2 : nRow.toNat < 2 ^ 31 := by omega
  have e3 : nCol.toNat < 2 ^ 31 := by omega
  simp only [colamdRecommended, usizeOf, if_pos h1, if_pos h2, if_pos h3, Option.bind_eq_bind, Option.bind_some,
    recordSize_of e2 (by norm_num : 4 ≤ 6), recordSize_of e3 (le_refl 6)]
  generalize nnz.toNat = z at *
  generalize nRow.toNat = r at *
  generalize nCol.toNat = c at *
  have f0 : checkedMul64 z 2 = some (z * 2) := checkedMul64_eq.2 ⟨by omega, rfl⟩
  have f1 : checkedAdd64 (z * 2) (6 * (c + 1)) = some (z * 2 + 6 * (c + 1)) := checkedAdd64_eq.2 ⟨by omega, rfl⟩
  have f2 : checkedAdd64 (z * 2 + 6 * (c + 1)) (4 * (r + 1)) = some (z * 2 + 6 * (c + 1) + 4 * (r + 1)) :=
    checkedAdd64_eq.2 ⟨by omega, rfl⟩
  have f3 : checkedAdd64 (z * 2 + 6 * (c + 1) + 4 * (r + 1)) c = some (z * 2 + 6 * (c + 1) + 4 * (r + 1) + c) :=
    checkedAdd64_eq.2 ⟨by omega, rfl⟩
  rw [f0, Option.bind_some, f1, Option.bind_some, f2, Option.bind_some, f3, Option.bind_some]
  exact checkedAdd64_eq.2 ⟨by omega, by omega⟩

theorem colamdSizes_eq {nCol nRow nnz : Nat} {t : Nat × Nat × Nat} (h : colamdSizes nCol nRow nnz = some t) :
    t = (6 * (nCol + 1), 4 * (nRow + 1), 2 * nnz + nCol + 6 * (nCol + 1) + 4 * (nRow + 1)) := by
  simp only [colamdSizes, Option.bind_eq_bind, Option.bind_eq_some_iff, checkedAdd64_eq, checkedMul64_eq, Option.some.injEq] at h
  obtain ⟨cs, hcs, rs, hrs, s, ⟨_, rfl⟩, s, ⟨_, rfl⟩, s, ⟨_, rfl⟩, s, ⟨_, rfl⟩, rfl⟩ := h
  rw [recordSize_eq hcs, recordSize_eq hrs, Nat.mul_comm nnz 2]

theorem colamdSizes_of {nCol nRow nnz : Nat} (h1 : nCol < 2 ^ 31) (h2 : nRow < 2 ^ 31) (h3 : nnz < 2 ^ 31) :
    colamdSizes nCol nRow nnz = some (6 * (nCol + 1), 4 * (nRow + 1), 2 * nnz + nCol + 6 * (nCol + 1) + 4 * (nRow + 1)) := by
  have f0 : checkedMul64 nnz 2 = some (nnz * 2) := checkedMul64_eq.2 ⟨by omega, rfl⟩
  have f1 : checkedAdd64 (nnz * 2) nCol = some (nnz * 2 + nCol) := checkedAdd64_eq.2 ⟨by omega, rfl⟩
  have f2 : checkedAdd64 (nnz * 2 + nCol) (6 * (nCol + 1)) = some (nnz * 2 + nCol + 6 * (nCol + 1)) :=
    checkedAdd64_eq.2 ⟨by omega, rfl⟩
  have f3 : checkedAdd64 (nnz * 2 + nCol + 6 * (nCol + 1)) (4 * (nRow + 1)) = some (nnz * 2 + nCol + 6 * (nCol + 1) + 4 * (nRow + 1)) :=
    checkedAdd64_eq.2 ⟨by omega, rfl⟩
  simp only [colamdSizes, recordSize_of h1 (le_refl 6), recordSize_of h2 (by norm_num : 4 ≤ 6), Option.bind_eq_bind, Option.bind_some, f0,
    f1, f2, f3]
  rw [Nat.mul_comm nnz 2]

/-! ## Status codes -/

/-- The error statuses `init_rows_cols` can leave. -/
def EntryError (e : ColamdStats) : Prop := e.status = -8 ∨ e.status = -9

/-- The statuses `init_rows_cols` can succeed with. -/
def Fine (s : ColamdStats) : Prop := s.status = 0 ∨ s.status = 1

theorem foldC_inv {σ α : Type} (P : σ → Prop) (E : ColamdStats → Prop) (f : σ → α → R (Except ColamdStats σ)) (l : List α) (s : σ)
    (hP : P s) (h : ∀ s a, P s → (∀ s', f s a = .ok (.ok s') → P s') ∧ ∀ e, f s a = .ok (.error e) → E e) :
    (∀ s', foldC f l s = .ok (.ok s') → P s') ∧ ∀ e, foldC f l s = .ok (.error e) → E e := by
  induction l generalizing s with
  | nil => simp only [foldC]; exact ⟨by rintro s' h'; cases h'; exact hP, by rintro e h'; cases h'⟩
  | cons a l ih =>
    simp only [foldC]
    cases hf : f s a with
    | error p => simp
    | ok r =>
      cases r with
      | error e => simp only [ok_bind, pure_eq_ok]; exact ⟨(by rintro s' h'; cases h'), by rintro e' h'; cases h'; exact (h s a hP).2 e hf⟩
      | ok s1 => simp only [ok_bind]; exact ih s1 ((h s a hP).1 s1 hf)

theorem initColumn_error {stats : ColamdStats} {p : Mem Int} {cols : Mem ColamdCol} {col : Int} {e : ColamdStats}
    (h : initColumn stats p cols col = .ok (.error e)) : EntryError e := by
  unfold initColumn at h
  simp only [bind_eq_ok] at h
  obtain ⟨a, _, b, _, c, _, h⟩ := h
  split at h
  · cases h; exact Or.inl rfl
  · obtain ⟨_, _, h⟩ := bind_eq_ok.1 h
    cases h

theorem scanEntry_status {nRow col : Int} {s : ColumnScan} {row : Int} (hs : Fine s.stats) :
    (∀ s', scanEntry nRow col s row = .ok (.ok s') → Fine s'.stats) ∧ ∀ e, scanEntry nRow col s row = .ok (.error e) → EntryError e := by
  unfold scanEntry
  split
  · constructor
    · rintro s' h; cases h
    · rintro e h; cases h; exact Or.inr rfl
  · have key : Fine (if row ≤ s.lastRow ∨ (s.rows.get row).mark = col then
      { s.stats with status := 1, info1 := col, info2 := row, info3 := s.stats.info3 + 1 } else s.stats) := by
      split
      · exact Or.inr rfl
      · exact hs
    constructor
    · intro s' h
      obtain ⟨r, hr, h⟩ := bind_eq_ok.1 h
      rw [Mem.read_eq_ok] at hr
      obtain ⟨_, rfl⟩ := hr
      dsimp only at h
      split at h
      · obtain ⟨_, _, h⟩ := bind_eq_ok.1 h
        cases h; exact key
      · obtain ⟨_, _, h⟩ := bind_eq_ok.1 h
        obtain ⟨_, _, h⟩ := bind_eq_ok.1 h
        cases h; exact key
    · intro e h
      obtain ⟨r, hr, h⟩ := bind_eq_ok.1 h
      dsimp only at h
      split at h
      · obtain ⟨_, _, h⟩ := bind_eq_ok.1 h
        cases h
      · obtain ⟨_, _, h⟩ := bind_eq_ok.1 h
        obtain ⟨_, _, h⟩ := bind_eq_ok.1 h
        cases h

theorem initRowsCols_status {nRow nCol : Int} {b : ColamdBuffers} {stats : ColamdStats} (hs : Fine stats) :
    (∀ r, initRowsCols nRow nCol b stats = .ok (.ok r) → Fine r.2) ∧ ∀ e, initRowsCols nRow nCol b stats = .ok (.error e) → EntryError e := by
  unfold initRowsCols
  split
  · exact ⟨(by rintro r h; cases h), by rintro e h; cases h⟩
  have h1 := foldC_inv (fun _ => True) EntryError (initColumn stats b.head) (span 0 nCol.toNat) b.cols trivial
    (fun s a _ => ⟨fun _ _ => trivial, fun e h => initColumn_error h⟩)
  cases hc : foldC (initColumn stats b.head) (span 0 nCol.toNat) b.cols with
  | error p => exact ⟨(by rintro r h; cases h), by rintro e h; cases h⟩
  | ok c =>
    rw [ok_bind]
    cases c with
    | error e1 => exact ⟨(by rintro r h; cases h), by rintro e h; cases h; exact h1.2 _ hc⟩
    | ok cols =>
      dsimp only
      cases hr : (span 0 nRow.toNat).foldlM (fun rows row => rows.modify row (fun r => { r with length := 0, mark := -1 })) b.rows with
      | error p => exact ⟨(by rintro r h; cases h), by rintro e h; cases h⟩
      | ok rows =>
        rw [ok_bind]
        have h2 := foldC_inv (fun s : ColumnScan => Fine s.stats) EntryError (scanColumn nRow b.a b.head) (span 0 nCol.toNat)
          ⟨rows, cols, { stats with info3 := 0 }, -1⟩ hs (by
            intro s col hs
            unfold scanColumn
            constructor
            · intro s' h
              simp only [bind_eq_ok] at h
              obtain ⟨_, _, _, _, entries, _, h⟩ := h
              exact (foldC_inv (fun s : ColumnScan => Fine s.stats) EntryError (scanEntry nRow col) entries { s with lastRow := -1 } hs
                (fun s a hs => scanEntry_status hs)).1 _ h
            · intro e h
              simp only [bind_eq_ok] at h
              obtain ⟨_, _, _, _, entries, _, h⟩ := h
              exact (foldC_inv (fun s : ColumnScan => Fine s.stats) EntryError (scanEntry nRow col) entries { s with lastRow := -1 } hs
                (fun s a hs => scanEntry_status hs)).2 _ h)
        cases hsc : foldC (scanColumn nRow b.a b.head) (span 0 nCol.toNat) ⟨rows, cols, { stats with info3 := 0 }, -1⟩ with
        | error p => exact ⟨(by rintro r h; cases h), by rintro e h; cases h⟩
        | ok c =>
          rw [ok_bind]
          cases c with
          | error e1 => exact ⟨(by rintro r h; cases h), by rintro e h; cases h; exact h2.2 _ hsc⟩
          | ok s =>
            have hf := h2.1 _ hsc
            constructor
            · intro r h
              obtain ⟨x, _, h⟩ := bind_eq_ok.1 h
              split at h
              · obtain ⟨_, _, h⟩ := bind_eq_ok.1 h
                cases h; exact hf
              · cases h; exact hf
            · intro r h
              obtain ⟨x, _, h⟩ := bind_eq_ok.1 h
              split at h
              · obtain ⟨_, _, h⟩ := bind_eq_ok.1 h
                cases h
              · cases h

end Fiksi
