import Verif.Spec.Sparse
import Verif.Proofs.Basic
import Mathlib.Data.List.Sort
/-!
# Sparse matrices as sorted lists of positions
-/
namespace Fiksi

open Spec

/-- Positions `(column, row)` in the order of the storage. -/
def lexLt (a b : Nat × Nat) : Prop := a.1 < b.1 ∨ (a.1 = b.1 ∧ a.2 < b.2)

instance : DecidableRel lexLt := fun a b => by unfold lexLt; infer_instance

theorem lexLt_trans {a b c : Nat × Nat} (h : lexLt a b) (h' : lexLt b c) : lexLt a c := by
  unfold lexLt at *; omega

theorem lexLt_irrefl {a : Nat × Nat} : ¬ lexLt a a := by unfold lexLt; omega

theorem lexLt_total (a b : Nat × Nat) : lexLt a b ∨ a = b ∨ lexLt b a := by
  unfold lexLt
  rcases a with ⟨a1, a2⟩
  rcases b with ⟨b1, b2⟩
  simp only [Prod.mk.injEq]
  omega

/-- The number of positions in the columns before `c`. -/
def before (D : List (Nat × Nat)) (c : Nat) : Nat := D.countP (fun d => d.1 < c)

theorem before_le (D : List (Nat × Nat)) (c : Nat) : before D c ≤ D.length := List.countP_le_length

theorem before_mono (D : List (Nat × Nat)) {c c' : Nat} (h : c ≤ c') : before D c ≤ before D c' := by
  apply List.countP_mono_left
  intro d _ hd
  simp only [decide_eq_true_eq] at *
  omega

theorem lt_before {D : List (Nat × Nat)} (hD : D.Pairwise lexLt) {p c : Nat} {d : Nat × Nat} (hp : D[p]? = some d) :
    p < before D c ↔ d.1 < c := by
  induction D generalizing p with
  | nil => simp at hp
  | cons e D ih =>
    rw [List.pairwise_cons] at hD
    have hall : ¬ e.1 < c → ∀ x ∈ D, ¬ x.1 < c := by
      intro h x hx
      have := hD.1 x hx
      unfold lexLt at this
      omega
    cases p with
    | zero =>
      simp only [List.getElem?_cons_zero, Option.some.injEq] at hp
      subst hp
      by_cases h : e.1 < c
      · simp [before, List.countP_cons, h]
      · simp [before, h]
        exact fun a b hab => not_lt.1 (hall h (a, b) hab)
    | succ p =>
      simp only [List.getElem?_cons_succ] at hp
      have := ih hD.2 hp
      by_cases h : e.1 < c
      · rw [before, List.countP_cons, ← this, before]
        simp [h]
      · have h0 : before D c = 0 := by
          rw [before, List.countP_eq_zero]
          intro x hx
          simpa using hall h x hx
        rw [before, List.countP_cons, ← this]
        have : D.countP (fun d => decide (d.1 < c)) = 0 := h0
        rw [this]
        simp [h, h0]

/-- The structure with the given positions. -/
def structOf (nrows ncols : Nat) (D : List (Nat × Nat)) : SparseStructure :=
  ⟨nrows, ncols, D.map Prod.snd, (List.range (ncols + 1)).map (before D)⟩

/-- The positions are sorted, distinct and in range. -/
structure PositionsOk (nrows ncols : Nat) (D : List (Nat × Nat)) : Prop where
  sorted : D.Pairwise lexLt
  bound : ∀ d ∈ D, d.1 < ncols ∧ d.2 < nrows

section
variable {nrows ncols : Nat} {D : List (Nat × Nat)}

theorem structOf_pointer {j v : Nat} : (structOf nrows ncols D).columnPointers[j]? = some v ↔ j ≤ ncols ∧ before D j = v := by
  simp only [structOf, List.getElem?_map, Option.map_eq_some_iff]
  constructor
  · rintro ⟨k, h1, h2⟩
    obtain ⟨h3, rfl⟩ := List.getElem?_eq_some_iff.1 h1
    simp at h3 h2
    exact ⟨by omega, h2⟩
  · rintro ⟨h1, h2⟩
    exact ⟨j, List.getElem?_range (by omega), h2⟩

theorem structOf_row {p i : Nat} : (structOf nrows ncols D).rowIndices[p]? = some i ↔ ∃ c, D[p]? = some (c, i) := by
  simp only [structOf, List.getElem?_map, Option.map_eq_some_iff]
  constructor
  · rintro ⟨⟨c, r⟩, h1, rfl⟩
    exact ⟨c, h1⟩
  · rintro ⟨c, h⟩
    exact ⟨_, h, rfl⟩

theorem structOf_entryAt (h : PositionsOk nrows ncols D) {i j p : Nat} : EntryAt (structOf nrows ncols D) i j p ↔ D[p]? = some (j, i) := by
  constructor
  · rintro ⟨a, b, h1, h2, h3, h4, h5⟩
    obtain ⟨-, rfl⟩ := structOf_pointer.1 h1
    obtain ⟨-, rfl⟩ := structOf_pointer.1 h2
    obtain ⟨c, h6⟩ := structOf_row.1 h5
    have h7 := lt_before h.sorted (c := j) h6
    have h8 := lt_before h.sorted (c := j + 1) h6
    simp only at h7 h8
    have : c = j := by omega
    subst this
    exact h6
  · intro hp
    have hb := h.bound _ (List.mem_of_getElem? hp)
    have h7 := lt_before h.sorted (c := j) hp
    have h8 := lt_before h.sorted (c := j + 1) hp
    simp only at h7 h8 hb
    exact ⟨_, _, structOf_pointer.2 ⟨by omega, rfl⟩, structOf_pointer.2 ⟨by omega, rfl⟩, by omega, by omega, structOf_row.2 ⟨_, hp⟩⟩

theorem structOf_has (h : PositionsOk nrows ncols D) {i j : Nat} : Has (structOf nrows ncols D) i j ↔ (j, i) ∈ D := by
  constructor
  · rintro ⟨p, hp⟩
    exact List.mem_of_getElem? ((structOf_entryAt h).1 hp)
  · intro hm
    obtain ⟨p, hp⟩ := List.mem_iff_getElem?.1 hm
    exact ⟨p, (structOf_entryAt h).2 hp⟩

theorem structOf_wellFormed (h : PositionsOk nrows ncols D) : WellFormed (structOf nrows ncols D) where
  count := by simp [structOf]
  first := structOf_pointer.2 ⟨by omega, by simp [before]⟩
  last := structOf_pointer.2 ⟨le_refl _, by
    simp only [structOf, List.length_map]
    rw [before, List.countP_eq_length]
    intro d hd
    simpa using (h.bound d hd).1⟩
  mono := by
    intro j a b h1 h2
    obtain ⟨-, rfl⟩ := structOf_pointer.1 h1
    obtain ⟨-, rfl⟩ := structOf_pointer.1 h2
    exact before_mono D (by omega)
  bound := by
    intro r hr
    simp only [structOf, List.mem_map] at hr
    obtain ⟨d, hd, rfl⟩ := hr
    exact (h.bound d hd).2
  sorted := by
    intro j a b h1 h2 p q r t hap hpq hqb hr ht
    have hp : D[p]? = some (j, r) := (structOf_entryAt h).1 ⟨a, b, h1, h2, hap, by omega, hr⟩
    have hq : D[q]? = some (j, t) := (structOf_entryAt h).1 ⟨a, b, h1, h2, by omega, hqb, ht⟩
    obtain ⟨hp1, hp2⟩ := List.getElem?_eq_some_iff.1 hp
    obtain ⟨hq1, hq2⟩ := List.getElem?_eq_some_iff.1 hq
    have := List.pairwise_iff_getElem.1 h.sorted p q hp1 hq1 hpq
    rw [hp2, hq2] at this
    unfold lexLt at this
    simp only at this
    omega

end

/-- The positions of a structure. -/
def positionsUpTo (s : SparseStructure) (k : Nat) : List (Nat × Nat) :=
  (List.range k).flatMap (fun j => ((s.rowIndices.drop (s.columnPointers.getD j 0)).take
    (s.columnPointers.getD (j + 1) 0 - s.columnPointers.getD j 0)).map (fun i => (j, i)))

theorem Spec.WellFormed.pointer {s : SparseStructure} (h : WellFormed s) {j : Nat} (hj : j ≤ s.ncols) :
    s.columnPointers[j]? = some (s.columnPointers.getD j 0) := by
  rw [List.getD_eq_getElem?_getD, List.getElem?_eq_getElem (by rw [h.count]; omega)]
  rfl

theorem Spec.WellFormed.pointer_zero {s : SparseStructure} (h : WellFormed s) : s.columnPointers.getD 0 0 = 0 := by
  rw [List.getD_eq_getElem?_getD, h.first]; rfl

theorem Spec.WellFormed.pointer_last {s : SparseStructure} (h : WellFormed s) : s.columnPointers.getD s.ncols 0 = s.rowIndices.length := by
  rw [List.getD_eq_getElem?_getD, h.last]; rfl

theorem Spec.WellFormed.pointer_mono {s : SparseStructure} (h : WellFormed s) {i j : Nat} (hij : i ≤ j) (hj : j ≤ s.ncols) :
    s.columnPointers.getD i 0 ≤ s.columnPointers.getD j 0 := by
  induction j with
  | zero => rw [Nat.le_zero.1 hij]
  | succ j ih =>
    rcases Nat.eq_or_lt_of_le hij with rfl | hlt
    · exact le_refl _
    · exact le_trans (ih (by omega) (by omega)) (h.mono j _ _ (h.pointer (by omega)) (h.pointer hj))

theorem Spec.WellFormed.pointer_le {s : SparseStructure} (h : WellFormed s) {j : Nat} (hj : j ≤ s.ncols) :
    s.columnPointers.getD j 0 ≤ s.rowIndices.length := by
  rw [← h.pointer_last]
  exact h.pointer_mono hj (le_refl _)

theorem positionsUpTo_succ (s : SparseStructure) (k : Nat) : positionsUpTo s (k + 1) = positionsUpTo s k ++
    ((s.rowIndices.drop (s.columnPointers.getD k 0)).take (s.columnPointers.getD (k + 1) 0 - s.columnPointers.getD k 0)).map (fun i => (k, i)) := by
  rw [positionsUpTo, List.range_succ, List.flatMap_append]
  simp [positionsUpTo]

theorem positionsUpTo_rows {s : SparseStructure} (h : WellFormed s) {k : Nat} (hk : k ≤ s.ncols) :
    (positionsUpTo s k).map Prod.snd = s.rowIndices.take (s.columnPointers.getD k 0) := by
  induction k with
  | zero => rw [h.pointer_zero]; simp [positionsUpTo]
  | succ k ih =>
    rw [positionsUpTo_succ, List.map_append, ih (by omega), List.map_map]
    have hm := h.pointer_mono (i := k) (j := k + 1) (by omega) hk
    rw [show (Prod.snd ∘ fun i => (k, i)) = (id : Nat → Nat) from rfl, List.map_id, ← List.take_add]
    congr 1
    omega

theorem positionsUpTo_length {s : SparseStructure} (h : WellFormed s) {k : Nat} (hk : k ≤ s.ncols) :
    (positionsUpTo s k).length = s.columnPointers.getD k 0 := by
  rw [← List.length_map (f := Prod.snd), positionsUpTo_rows h hk, List.length_take, Nat.min_eq_left (h.pointer_le hk)]

theorem positionsUpTo_col {s : SparseStructure} {k : Nat} {d : Nat × Nat} (hd : d ∈ positionsUpTo s k) : d.1 < k := by
  rw [positionsUpTo, List.mem_flatMap] at hd
  obtain ⟨j, hj, hd⟩ := hd
  obtain ⟨i, -, rfl⟩ := List.mem_map.1 hd
  exact List.mem_range.1 hj

theorem positionsUpTo_sorted {s : SparseStructure} (h : WellFormed s) {k : Nat} (hk : k ≤ s.ncols) :
    (positionsUpTo s k).Pairwise lexLt := by
  induction k with
  | zero => simp [positionsUpTo]
  | succ k ih =>
    rw [positionsUpTo_succ, List.pairwise_append]
    refine ⟨ih (by omega), ?_, ?_⟩
    · rw [List.pairwise_map, List.pairwise_iff_getElem]
      intro p q hp hq hpq
      right
      refine ⟨rfl, ?_⟩
      simp only [List.getElem_take, List.getElem_drop]
      simp only [List.length_take, List.length_drop] at hp hq
      refine h.sorted k _ _ (h.pointer (by omega)) (h.pointer hk) (s.columnPointers.getD k 0 + p) (s.columnPointers.getD k 0 + q) _ _
        (by omega) (by omega) (by omega) (List.getElem?_eq_getElem (by omega)) (List.getElem?_eq_getElem (by omega))
    · intro a ha b hb
      obtain ⟨i, -, rfl⟩ := List.mem_map.1 hb
      exact Or.inl (positionsUpTo_col ha)

theorem positionsUpTo_split {s : SparseStructure} {c k : Nat} (hc : c ≤ k) :
    ∃ rest, positionsUpTo s k = positionsUpTo s c ++ rest ∧ ∀ d ∈ rest, c ≤ d.1 := by
  induction k with
  | zero => exact ⟨[], by rw [Nat.le_zero.1 hc]; simp, by simp⟩
  | succ k ih =>
    rcases Nat.eq_or_lt_of_le hc with rfl | hlt
    · exact ⟨[], by simp, by simp⟩
    · obtain ⟨rest, h1, h2⟩ := ih (by omega)
      refine ⟨rest ++ _, by rw [positionsUpTo_succ, h1, List.append_assoc], ?_⟩
      intro d hd
      rcases List.mem_append.1 hd with hd | hd
      · exact h2 d hd
      · obtain ⟨i, -, rfl⟩ := List.mem_map.1 hd
        show c ≤ k
        omega

/-- The positions of a structure. -/
def positions (s : SparseStructure) : List (Nat × Nat) := positionsUpTo s s.ncols

theorem Spec.WellFormed.before {s : SparseStructure} (h : WellFormed s) {c : Nat} (hc : c ≤ s.ncols) :
    Fiksi.before (positions s) c = s.columnPointers.getD c 0 := by
  obtain ⟨rest, h1, h2⟩ := positionsUpTo_split (s := s) hc
  rw [positions, h1, Fiksi.before, List.countP_append, ← positionsUpTo_length h hc]
  have e1 : (positionsUpTo s c).countP (fun d => decide (d.1 < c)) = (positionsUpTo s c).length := by
    rw [List.countP_eq_length]
    intro d hd
    simpa using positionsUpTo_col hd
  have e2 : rest.countP (fun d => decide (d.1 < c)) = 0 := by
    rw [List.countP_eq_zero]
    intro d hd
    simpa using h2 d hd
  omega

/-- A well-formed structure is determined by its positions. -/
theorem Spec.WellFormed.eq_structOf {s : SparseStructure} (h : WellFormed s) : s = structOf s.nrows s.ncols (positions s) := by
  have h1 : s.rowIndices = (positions s).map Prod.snd := by
    rw [positions, positionsUpTo_rows h (le_refl _), h.pointer_last, List.take_length]
  have h2 : s.columnPointers = (List.range (s.ncols + 1)).map (Fiksi.before (positions s)) := by
    apply List.ext_getElem?
    intro j
    by_cases hj : j ≤ s.ncols
    · rw [h.pointer hj, List.getElem?_map, List.getElem?_range (by omega), Option.map_some, h.before hj]
    · rw [List.getElem?_eq_none (by rw [h.count]; omega), List.getElem?_eq_none (by simp; omega)]
  cases s
  simp only [structOf, SparseStructure.mk.injEq, true_and] at *
  exact ⟨h1, h2⟩

theorem Spec.WellFormed.positionsOk {s : SparseStructure} (h : WellFormed s) : PositionsOk s.nrows s.ncols (positions s) where
  sorted := positionsUpTo_sorted h (le_refl _)
  bound := by
    intro d hd
    refine ⟨positionsUpTo_col hd, h.bound _ ?_⟩
    have : d.2 ∈ (positions s).map Prod.snd := List.mem_map_of_mem hd
    rw [positions, positionsUpTo_rows h (le_refl _)] at this
    exact List.mem_of_mem_take this

theorem Spec.WellFormed.entryAt {s : SparseStructure} (h : WellFormed s) {i j p : Nat} : EntryAt s i j p ↔ (positions s)[p]? = some (j, i) := by
  conv_lhs => rw [h.eq_structOf]
  exact structOf_entryAt h.positionsOk

theorem Spec.WellFormed.has {s : SparseStructure} (h : WellFormed s) {i j : Nat} : Has s i j ↔ (j, i) ∈ positions s := by
  conv_lhs => rw [h.eq_structOf]
  exact structOf_has h.positionsOk

theorem Spec.WellFormed.positions_length {s : SparseStructure} (h : WellFormed s) : (positions s).length = s.rowIndices.length := by
  rw [positions, positionsUpTo_length h (le_refl _), h.pointer_last]

/-- Sorted lists with the same members are equal. -/
theorem sorted_ext {D D' : List (Nat × Nat)} (h : D.Pairwise lexLt) (h' : D'.Pairwise lexLt) (hm : ∀ d, d ∈ D ↔ d ∈ D') : D = D' := by
  have nd : ∀ {D : List (Nat × Nat)}, D.Pairwise lexLt → D.Nodup := fun h =>
    h.imp (fun {a b} hab => by rintro rfl; exact lexLt_irrefl hab)
  have hp : D.Perm D' := (List.perm_ext_iff_of_nodup (nd h) (nd h')).2 hm
  exact hp.eq_of_pairwise (fun a b _ _ h1 h2 => absurd (lexLt_trans h1 h2) lexLt_irrefl) h h'

theorem wellFormed_ext {s s' : SparseStructure} (h : WellFormed s) (h' : WellFormed s') (hr : s.nrows = s'.nrows) (hc : s.ncols = s'.ncols)
    (hm : ∀ i j, Has s i j ↔ Has s' i j) : s = s' := by
  have : positions s = positions s' := sorted_ext h.positionsOk.sorted h'.positionsOk.sorted (by
    rintro ⟨j, i⟩
    rw [← h.has, ← h'.has]
    exact hm i j)
  rw [h.eq_structOf, h'.eq_structOf, this, hr, hc]

theorem stored_unique {T : Type} {a : SparseColMat T} (h : WellFormed a.structure') {i j : Nat} {v w : T} (hv : Stored a i j v)
    (hw : Stored a i j w) : v = w := by
  obtain ⟨p, h1, h2⟩ := hv
  obtain ⟨q, h3, h4⟩ := hw
  rw [h.entryAt] at h1 h3
  have hpq : p = q := by
    obtain ⟨hp1, hp2⟩ := List.getElem?_eq_some_iff.1 h1
    obtain ⟨hq1, hq2⟩ := List.getElem?_eq_some_iff.1 h3
    have hs := List.pairwise_iff_getElem.1 h.positionsOk.sorted
    rcases lt_trichotomy p q with hlt | heq | hlt
    · have := hs p q hp1 hq1 hlt
      rw [hp2, hq2] at this
      exact absurd this lexLt_irrefl
    · exact heq
    · have := hs q p hq1 hp1 hlt
      rw [hp2, hq2] at this
      exact absurd this lexLt_irrefl
  subst hpq
  rw [h2] at h4
  exact Option.some.inj h4

/-- A well-formed matrix is determined by its shape and what it stores. -/
theorem matWellFormed_ext {T : Type} {a a' : SparseColMat T} (h : MatWellFormed a) (h' : MatWellFormed a')
    (hr : a.structure'.nrows = a'.structure'.nrows) (hc : a.structure'.ncols = a'.structure'.ncols)
    (hm : ∀ i j v, Stored a i j v ↔ Stored a' i j v) : a = a' := by
  have hval : ∀ {a : SparseColMat T}, MatWellFormed a → ∀ {i j p : Nat}, EntryAt a.structure' i j p → ∃ v, a.values[p]? = some v := by
    intro a h i j p hp
    rw [h.1.entryAt] at hp
    have : p < a.values.length := by
      rw [h.2, ← h.1.positions_length]
      exact (List.getElem?_eq_some_iff.1 hp).1
    exact ⟨_, List.getElem?_eq_getElem this⟩
  have hs : a.structure' = a'.structure' := wellFormed_ext h.1 h'.1 hr hc (by
    intro i j
    constructor
    · rintro ⟨p, hp⟩
      obtain ⟨v, hv⟩ := hval h hp
      obtain ⟨q, hq, -⟩ := (hm i j v).1 ⟨p, hp, hv⟩
      exact ⟨q, hq⟩
    · rintro ⟨p, hp⟩
      obtain ⟨v, hv⟩ := hval h' hp
      obtain ⟨q, hq, -⟩ := (hm i j v).2 ⟨p, hp, hv⟩
      exact ⟨q, hq⟩)
  have hv : a.values = a'.values := by
    apply List.ext_getElem?
    intro p
    by_cases hp : p < a.structure'.rowIndices.length
    · rw [← h.1.positions_length] at hp
      obtain ⟨⟨j, i⟩, hji⟩ : ∃ d, (positions a.structure')[p]? = some d := ⟨_, List.getElem?_eq_getElem hp⟩
      have hp3 := h.1.entryAt.2 hji
      obtain ⟨v, hv⟩ := hval h hp3
      obtain ⟨q, hq, hqv⟩ := (hm _ _ v).1 ⟨p, hp3, hv⟩
      rw [hs] at hp3
      obtain ⟨w, hw⟩ := hval h' hp3
      have := stored_unique h'.1 ⟨q, hq, hqv⟩ ⟨p, hp3, hw⟩
      rw [hv, hw, this]
    · rw [List.getElem?_eq_none (by rw [h.2]; omega), List.getElem?_eq_none (by rw [h'.2, ← hs]; omega)]
  cases a
  cases a'
  simp only [SparseColMat.mk.injEq] at *
  exact ⟨hs, hv⟩

end Fiksi
