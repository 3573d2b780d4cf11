import Verif.Proofs.Transpose
/-!
# Validating sparse structures
-/
namespace Fiksi

open Spec

theorem checkRows_eq_none {nrows col : Nat} {l : List (Nat × Nat)} {prev : Nat} :
    checkRows nrows col prev l = none ↔ (∀ x ∈ l, x.1 < nrows) ∧ (prev :: l.map Prod.fst).Pairwise (· < ·) := by
  induction l generalizing prev with
  | nil => simp [checkRows]
  | cons x l ih =>
    obtain ⟨row, i⟩ := x
    simp only [checkRows]
    by_cases h1 : nrows ≤ row
    · simp only [if_pos h1, List.mem_cons, forall_eq_or_imp]
      constructor
      · intro h; simp at h
      · rintro ⟨⟨h, -⟩, -⟩; omega
    · by_cases h2 : row ≤ prev
      · simp only [if_neg h1, if_pos h2, List.map_cons, List.pairwise_cons, List.mem_cons, forall_eq_or_imp]
        constructor
        · intro h; simp at h
        · rintro ⟨-, ⟨h, -⟩, -⟩; omega
      · simp only [if_neg h1, if_neg h2, ih, List.map_cons, List.pairwise_cons, List.mem_cons, forall_eq_or_imp]
        constructor
        · rintro ⟨h3, h4, h5⟩
          exact ⟨⟨by omega, h3⟩, ⟨by omega, fun y hy => by have := h4 y hy; omega⟩, h4, h5⟩
        · rintro ⟨⟨-, h3⟩, -, h4, h5⟩
          exact ⟨h3, h4, h5⟩

/-- What the check of a column establishes. -/
structure ColumnOk (nrows : Nat) (rows : List Nat) (a b : Nat) : Prop where
  mono : a ≤ b
  bound : ∀ (p r : Nat), a ≤ p → p < b → rows[p]? = some r → r < nrows
  sorted : ∀ (p q r t : Nat), a ≤ p → p < q → q < b → rows[p]? = some r → rows[q]? = some t → r < t

theorem sorted_slice {rows : List Nat} {a b : Nat} :
    ((rows.drop a).take (b - a)).Pairwise (· < ·) ↔
      ∀ (p q r t : Nat), a ≤ p → p < q → q < b → rows[p]? = some r → rows[q]? = some t → r < t := by
  rw [List.pairwise_iff_getElem]
  constructor
  · intro h p q r t h1 h2 h3 h4 h5
    obtain ⟨h6, rfl⟩ := List.getElem?_eq_some_iff.1 h4
    obtain ⟨h7, rfl⟩ := List.getElem?_eq_some_iff.1 h5
    have := h (p - a) (q - a) (by simp; omega) (by simp; omega) (by omega)
    simp only [List.getElem_take, List.getElem_drop] at this
    simpa only [show a + (p - a) = p by omega, show a + (q - a) = q by omega] using this
  · intro h p q hp hq hpq
    simp only [List.getElem_take, List.getElem_drop]
    simp only [List.length_take, List.length_drop] at hp hq
    exact h (a + p) (a + q) _ _ (by omega) (by omega) (by omega) (List.getElem?_eq_getElem (by omega)) (List.getElem?_eq_getElem (by omega))

theorem mem_slice {rows : List Nat} {a b r : Nat} :
    r ∈ (rows.drop a).take (b - a) ↔ ∃ p, a ≤ p ∧ p < b ∧ rows[p]? = some r := by
  rw [List.mem_iff_getElem?]
  constructor
  · rintro ⟨p, hp⟩
    obtain ⟨h1, h2⟩ := List.getElem?_eq_some_iff.1 hp
    simp only [List.getElem_take, List.getElem_drop] at h2
    simp only [List.length_take, List.length_drop] at h1
    exact ⟨a + p, by omega, by omega, by rw [← h2]; exact List.getElem?_eq_getElem (by omega)⟩
  · rintro ⟨p, h1, h2, h3⟩
    refine ⟨p - a, ?_⟩
    rw [List.getElem?_take, if_pos (by omega), List.getElem?_drop, show a + (p - a) = p by omega, h3]

theorem checkColumn_spec {nrows : Nat} {rows ptrs : List Nat} {col a b : Nat} (ha : ptrs[col]? = some a) (hb : ptrs[col + 1]? = some b)
    (hbl : a < b → a < rows.length) : ∃ o, checkColumn nrows rows ptrs col = .ok o ∧ (o = none ↔ ColumnOk nrows rows a b) := by
  rw [checkColumn, idx_of ha, idx_of hb]
  simp only [ok_bind]
  by_cases h1 : b < a
  · rw [if_pos h1]
    refine ⟨_, rfl, ?_⟩
    simp only [reduceCtorEq, false_iff]
    intro h
    have := h.mono
    omega
  · rw [if_neg h1]
    by_cases h2 : a < b
    · have hal := hbl h2
      have hra : rows[a]? = some rows[a] := List.getElem?_eq_getElem hal
      rw [if_pos h2, idx_of hra]
      simp only [ok_bind]
      by_cases h3 : nrows ≤ rows[a]
      · rw [if_pos h3]
        refine ⟨_, rfl, ?_⟩
        simp only [reduceCtorEq, false_iff]
        intro h
        have := h.bound a _ (le_refl _) h2 hra
        omega
      · rw [if_neg h3]
        refine ⟨_, rfl, ?_⟩
        rw [checkRows_eq_none]
        have hmap : ((rows.zipIdx.take b).drop (a + 1)).map Prod.fst = (rows.drop (a + 1)).take (b - (a + 1)) := by
          rw [List.map_drop, List.map_take, List.zipIdx_map_fst, List.drop_take]
        have hcons : rows[a] :: (rows.drop (a + 1)).take (b - (a + 1)) = (rows.drop a).take (b - a) := by
          rw [List.drop_eq_getElem_cons hal, show b - a = (b - (a + 1)) + 1 by omega, List.take_succ_cons]
        rw [hmap, hcons, sorted_slice]
        have hb' : (∀ x ∈ (rows.zipIdx.take b).drop (a + 1), x.1 < nrows) ↔ ∀ r ∈ (rows.drop (a + 1)).take (b - (a + 1)), r < nrows := by
          rw [← hmap, List.forall_mem_map]
        rw [hb']
        constructor
        · rintro ⟨h4, h5⟩
          refine ⟨by omega, ?_, h5⟩
          intro p r hp1 hp2 hp3
          rcases Nat.eq_or_lt_of_le hp1 with rfl | hlt
          · rw [hra] at hp3
            have := Option.some.inj hp3
            omega
          · exact h4 r (mem_slice.2 ⟨p, hlt, hp2, hp3⟩)
        · intro h
          refine ⟨?_, h.sorted⟩
          intro r hr
          obtain ⟨p, hp1, hp2, hp3⟩ := mem_slice.1 hr
          exact h.bound p r (by omega) hp2 hp3
    · rw [if_neg h2]
      refine ⟨_, rfl, ?_⟩
      simp only [true_iff]
      exact ⟨by omega, fun p r h3 h4 => by omega, fun p q r t h3 h4 => by omega⟩

theorem checkColumns_eq_none {nrows : Nat} {rows ptrs : List Nat} {l : List Nat} :
    checkColumns nrows rows ptrs l = .ok none ↔ ∀ c ∈ l, checkColumn nrows rows ptrs c = .ok none := by
  induction l with
  | nil => simp [checkColumns]
  | cons c l ih =>
    rw [checkColumns]
    cases h : checkColumn nrows rows ptrs c with
    | error e => simp [error_bind, h]
    | ok o =>
      cases o with
      | some e => simp [ok_bind, h, pure_eq_ok]
      | none =>
        simp only [ok_bind, List.mem_cons, forall_eq_or_imp, h, true_and]
        exact ih

theorem checkColumns_ok {nrows : Nat} {rows ptrs : List Nat} {l : List Nat}
    (h : ∀ c ∈ l, ∃ o, checkColumn nrows rows ptrs c = .ok o) : ∃ o, checkColumns nrows rows ptrs l = .ok o := by
  induction l with
  | nil => exact ⟨none, rfl⟩
  | cons c l ih =>
    obtain ⟨o, ho⟩ := h c (by simp)
    rw [checkColumns, ho]
    cases o with
    | some e => exact ⟨_, rfl⟩
    | none => exact ih (fun c hc => h c (by simp [hc]))

theorem wellFormed_of_columns {nrows ncols : Nat} {rows ptrs : List Nat} (hc : ptrs.length = ncols + 1) (h0 : ptrs[0]? = some 0)
    (hl : ptrs[ncols]? = some rows.length)
    (h : ∀ j a b, ptrs[j]? = some a → ptrs[j + 1]? = some b → ColumnOk nrows rows a b) : WellFormed ⟨nrows, ncols, rows, ptrs⟩ where
  count := hc
  first := h0
  last := hl
  mono := fun j a b h1 h2 => (h j a b h1 h2).mono
  bound := by
    intro r hr
    obtain ⟨p, hp⟩ := List.mem_iff_getElem?.1 hr
    have hpl := (List.getElem?_eq_some_iff.1 hp).1
    -- the column that holds the position
    have key : ∀ k, k ≤ ncols → (∃ e, ptrs[k]? = some e ∧ p < e) → r < nrows := by
      intro k
      induction k with
      | zero =>
        rintro - ⟨e, h1, h2⟩
        rw [h0] at h1
        have := Option.some.inj h1
        omega
      | succ k ih =>
        rintro hk ⟨e, h1, h2⟩
        have hkl : ptrs[k]? = some ptrs[k] := List.getElem?_eq_getElem (by omega)
        by_cases hpk : p < ptrs[k]
        · exact ih (by omega) ⟨_, hkl, hpk⟩
        · exact (h k _ _ hkl h1).bound p r (by omega) h2 hp
    exact key ncols (le_refl _) ⟨_, hl, hpl⟩
  sorted := fun j a b h1 h2 => (h j a b h1 h2).sorted

theorem tryFromData_eq_ok {nrows ncols : Nat} {rows ptrs : List Nat} {s : SparseStructure} :
    SparseStructure.tryFromData nrows ncols rows ptrs = .ok (.ok s) ↔ s = ⟨nrows, ncols, rows, ptrs⟩ ∧ WellFormed s := by
  rw [SparseStructure.tryFromData]
  by_cases hc : ptrs.length = ncols + 1
  · have h0 : ptrs[0]? = some ptrs[0] := List.getElem?_eq_getElem (by omega)
    have hl : ptrs[ncols]? = some ptrs[ncols] := List.getElem?_eq_getElem (by omega)
    rw [if_neg (by simpa using hc), idx_of h0]
    simp only [ok_bind]
    by_cases hz : ptrs[0] = 0
    · rw [if_neg (by simpa using hz), idx_of hl]
      simp only [ok_bind]
      by_cases hn : ptrs[ncols] = rows.length
      · rw [if_neg (by simpa using hn)]
        constructor
        · intro h
          cases hcc : checkColumns nrows rows ptrs (List.range ncols) with
          | error e => rw [hcc] at h; simp [error_bind] at h
          | ok o =>
            cases o with
            | some e => rw [hcc] at h; simp [ok_bind, pure_eq_ok] at h
            | none =>
              rw [hcc] at h
              simp only [ok_bind, pure_eq_ok, Except.ok.injEq] at h
              refine ⟨h.symm, ?_⟩
              subst h
              rw [checkColumns_eq_none] at hcc
              -- every column reads in bounds
              have hmono : ∀ j a b, ptrs[j]? = some a → ptrs[j + 1]? = some b → a ≤ b := by
                intro j a b ha hb
                have hj : j < ncols := by
                  have := (List.getElem?_eq_some_iff.1 hb).1
                  omega
                have h1 := hcc j (List.mem_range.2 hj)
                rw [checkColumn, idx_of ha, idx_of hb] at h1
                simp only [ok_bind] at h1
                by_contra hlt
                rw [if_pos (by omega)] at h1
                simp [pure_eq_ok] at h1
              have hle : ∀ d j a, j + d = ncols → ptrs[j]? = some a → a ≤ rows.length := by
                intro d
                induction d with
                | zero =>
                  intro j a hj ha
                  rw [Nat.add_zero] at hj
                  subst hj
                  rw [hl, hn] at ha
                  rw [Option.some.inj ha]
                | succ d ih =>
                  intro j a hj ha
                  have hb : ptrs[j + 1]? = some ptrs[j + 1] := List.getElem?_eq_getElem (by omega)
                  exact le_trans (hmono j a _ ha hb) (ih (j + 1) _ (by omega) hb)
              refine wellFormed_of_columns hc (by rw [h0, hz]) (by rw [hl, hn]) ?_
              intro j a b ha hb
              have hj : j < ncols := by
                have := (List.getElem?_eq_some_iff.1 hb).1
                omega
              have hb' := hle (ncols - (j + 1)) (j + 1) b (by omega) hb
              obtain ⟨o, h1, h2⟩ := checkColumn_spec (nrows := nrows) (rows := rows) ha hb (by omega)
              rw [hcc j (List.mem_range.2 hj)] at h1
              exact h2.1 (Except.ok.inj h1).symm
        · rintro ⟨rfl, hw⟩
          have : checkColumns nrows rows ptrs (List.range ncols) = .ok none := by
            rw [checkColumns_eq_none]
            intro j hj
            have hj := List.mem_range.1 hj
            have ha : ptrs[j]? = some ptrs[j] := List.getElem?_eq_getElem (by omega)
            have hb : ptrs[j + 1]? = some ptrs[j + 1] := List.getElem?_eq_getElem (by omega)
            have hble : ptrs[j + 1] ≤ rows.length := by
              have := hw.pointer_le (j := j + 1) hj
              simpa [List.getD_eq_getElem?_getD, hb] using this
            obtain ⟨o, h1, h2⟩ := checkColumn_spec (nrows := nrows) (rows := rows) ha hb (by omega)
            rw [h1, h2.2 ⟨hw.mono j _ _ ha hb, fun p r _ _ hp => hw.bound r (List.mem_of_getElem? hp), hw.sorted j _ _ ha hb⟩]
          rw [this]
          rfl
      · rw [if_pos (by simpa using hn)]
        constructor
        · intro h; simp [pure_eq_ok] at h
        · rintro ⟨rfl, hw⟩
          have := hw.last
          rw [hl] at this
          exact absurd (Option.some.inj this) hn
    · rw [if_pos (by simpa using hz)]
      constructor
      · intro h; simp [pure_eq_ok] at h
      · rintro ⟨rfl, hw⟩
        have := hw.first
        rw [h0] at this
        exact absurd (Option.some.inj this) hz
  · rw [if_pos (by simpa using hc)]
    constructor
    · intro h; simp [pure_eq_ok] at h
    · rintro ⟨rfl, hw⟩
      exact absurd hw.count hc

theorem tryFromData_no_panic {nrows ncols : Nat} {rows ptrs : List Nat} (h : ∀ p ∈ ptrs, p ≤ rows.length) :
    ∃ r, SparseStructure.tryFromData nrows ncols rows ptrs = .ok r := by
  rw [SparseStructure.tryFromData]
  by_cases hc : ptrs.length = ncols + 1
  · have h0 : ptrs[0]? = some ptrs[0] := List.getElem?_eq_getElem (by omega)
    have hl : ptrs[ncols]? = some ptrs[ncols] := List.getElem?_eq_getElem (by omega)
    rw [if_neg (by simpa using hc), idx_of h0]
    simp only [ok_bind]
    by_cases hz : ptrs[0] = 0
    · rw [if_neg (by simpa using hz), idx_of hl]
      simp only [ok_bind]
      by_cases hn : ptrs[ncols] = rows.length
      · rw [if_neg (by simpa using hn)]
        obtain ⟨o, ho⟩ := checkColumns_ok (nrows := nrows) (rows := rows) (ptrs := ptrs) (l := List.range ncols) (by
          intro j hj
          have hj := List.mem_range.1 hj
          have ha : ptrs[j]? = some ptrs[j] := List.getElem?_eq_getElem (by omega)
          have hb : ptrs[j + 1]? = some ptrs[j + 1] := List.getElem?_eq_getElem (by omega)
          obtain ⟨o, h1, -⟩ := checkColumn_spec (nrows := nrows) (rows := rows) ha hb (by
            have := h _ (List.getElem_mem (l := ptrs) (n := j + 1) (by omega))
            omega)
          exact ⟨o, h1⟩)
        rw [ho]
        cases o with
        | none => exact ⟨_, rfl⟩
        | some e => exact ⟨_, rfl⟩
      · rw [if_pos (by simpa using hn)]
        exact ⟨_, rfl⟩
    · rw [if_pos (by simpa using hz)]
      exact ⟨_, rfl⟩
  · rw [if_pos (by simpa using hc)]
    exact ⟨_, rfl⟩

end Fiksi
