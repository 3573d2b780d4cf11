import Verif.Proofs.Compress
/-!
# Transposing
-/
namespace Fiksi

open Spec

theorem sliceIdx_of {α : Type} {l : List α} {a b : Nat} (h1 : a ≤ b) (h2 : b ≤ l.length) : sliceIdx l a b = .ok ((l.drop a).take (b - a)) := by
  rw [sliceIdx, if_pos ⟨h1, h2⟩]

theorem Spec.WellFormed.indexColumnRange {s : SparseStructure} (h : WellFormed s) {j : Nat} (hj : j < s.ncols) :
    s.indexColumnRange j = .ok (s.columnPointers.getD j 0, s.columnPointers.getD (j + 1) 0) := by
  rw [SparseStructure.indexColumnRange, if_neg (by rw [h.count]; omega), idx_of (h.pointer (by omega)), idx_of (h.pointer (by omega))]
  rfl

/-- The rows of a column. -/
def columnRows (s : SparseStructure) (j : Nat) : List Nat :=
  (s.rowIndices.drop (s.columnPointers.getD j 0)).take (s.columnPointers.getD (j + 1) 0 - s.columnPointers.getD j 0)

theorem Spec.WellFormed.indexColumn {s : SparseStructure} (h : WellFormed s) {j : Nat} (hj : j < s.ncols) :
    s.indexColumn j = .ok (columnRows s j) := by
  rw [SparseStructure.indexColumn, h.indexColumnRange hj]
  exact sliceIdx_of (h.pointer_mono (by omega) (by omega)) (h.pointer_le (by omega))

theorem Spec.WellFormed.columnRows_length {s : SparseStructure} (h : WellFormed s) {j : Nat} (hj : j < s.ncols) :
    (columnRows s j).length = s.columnPointers.getD (j + 1) 0 - s.columnPointers.getD j 0 := by
  have h1 := h.pointer_le (j := j + 1) (by omega)
  simp only [columnRows, List.length_take, List.length_drop]
  omega

theorem Spec.WellFormed.columnRows_bound {s : SparseStructure} (h : WellFormed s) {j i : Nat} (hi : i ∈ columnRows s j) : i < s.nrows :=
  h.bound i (List.mem_of_mem_drop (List.mem_of_mem_take hi))

variable {T : Type}

theorem transposePush_foldlM {nrows ncols j : Nat} (hj : j < ncols) (rows : List Nat) (hrows : ∀ i ∈ rows, i < nrows) (R' C' : List Nat) (V vs : List T)
    (hvs : rows.length ≤ vs.length) :
    rows.foldlM (transposePush j) (⟨nrows, ncols, R', C', V⟩, vs) =
      .ok (⟨nrows, ncols, R' ++ rows, C' ++ rows.map (fun _ => j), V ++ vs.take rows.length⟩, vs.drop rows.length) := by
  induction rows generalizing R' C' V vs with
  | nil => simp [pure_eq_ok]
  | cons i rows ih =>
    cases vs with
    | nil => simp at hvs
    | cons v vs =>
      rw [List.foldlM_cons]
      have h1 : transposePush j (⟨nrows, ncols, R', C', V⟩, v :: vs) i = .ok (⟨nrows, ncols, R' ++ [i], C' ++ [j], V ++ [v]⟩, vs) := by
        have := hrows i (by simp)
        simp only [transposePush, List.head?_cons, unwrap, ok_bind, TripletMat.push, List.tail_cons, pure_eq_ok]
        rw [Nat.max_eq_left (by omega), Nat.max_eq_left (by omega)]
      rw [h1, ok_bind, ih (fun i hi => hrows i (by simp [hi])) _ _ _ _ (by simpa using hvs)]
      simp

theorem transposeColumns {s : SparseStructure} (h : WellFormed s) {values : List T} (hv : values.length = s.rowIndices.length) :
    (List.range s.ncols).foldlM (transposeColumn s) (TripletMat.new s.nrows s.ncols, values) =
      .ok (⟨s.nrows, s.ncols, (positions s).map Prod.snd, (positions s).map Prod.fst, values⟩, []) := by
  have key : ∀ k ≤ s.ncols, (List.range k).foldlM (transposeColumn s) (TripletMat.new s.nrows s.ncols, values) =
      .ok (⟨s.nrows, s.ncols, (positionsUpTo s k).map Prod.snd, (positionsUpTo s k).map Prod.fst, values.take (s.columnPointers.getD k 0)⟩,
        values.drop (s.columnPointers.getD k 0)) := by
    intro k hk
    induction k with
    | zero => rw [h.pointer_zero]; rfl
    | succ k ih =>
      rw [List.range_succ, List.foldlM_append, ih (by omega), ok_bind, List.foldlM_cons, transposeColumn, h.indexColumn (by omega), ok_bind]
      have hm := h.pointer_mono (i := k) (j := k + 1) (by omega) hk
      have hl := h.pointer_le hk
      have hcl := h.columnRows_length (j := k) (by omega)
      rw [transposePush_foldlM (by omega) _ (fun i hi => h.columnRows_bound hi) _ _ _ _ (by
        rw [hcl, List.length_drop]; omega)]
      rw [positionsUpTo_succ]
      simp only [ok_bind, List.foldlM_nil, pure_eq_ok, hcl, List.map_append, List.map_map, List.drop_drop]
      rw [← List.take_add]
      have e1 : s.columnPointers.getD k 0 + (s.columnPointers.getD (k + 1) 0 - s.columnPointers.getD k 0) = s.columnPointers.getD (k + 1) 0 := by
        omega
      rw [e1]
      congr 3
      · congr 1
        rw [show (Prod.snd ∘ fun i => (k, i)) = (id : Nat → Nat) from rfl, List.map_id]
        rfl
  have := key s.ncols (le_refl _)
  rw [this, h.pointer_last, ← hv, List.take_length, List.drop_length]
  rfl

theorem sumAt_single [Add T] {l : List (Nat × Nat × T)} (hn : (l.map tripletPos).Nodup) {t : Nat × Nat × T} (ht : t ∈ l) :
    sumAt l (tripletPos t) = some t.2.2 := by
  have : l.filter (fun x => tripletPos x = tripletPos t) = [t] := by
    induction l with
    | nil => simp at ht
    | cons x l ih =>
      rw [List.map_cons, List.nodup_cons] at hn
      rcases List.mem_cons.1 ht with rfl | ht
      · rw [List.filter_cons_of_pos (by simp), List.filter_eq_nil_iff.2]
        intro y hy
        simp only [decide_eq_true_eq]
        intro he
        exact hn.1 (he ▸ List.mem_map_of_mem hy)
      · rw [List.filter_cons_of_neg, ih hn.2 ht]
        simp only [decide_eq_true_eq]
        intro he
        exact hn.1 (he ▸ List.mem_map_of_mem ht)
  rw [sumAt, this]
  rfl

theorem positionsOk_nodup {D : List (Nat × Nat)} (h : D.Pairwise lexLt) : D.Nodup :=
  h.imp (fun {a b} hab => by rintro rfl; exact lexLt_irrefl hab)

/-- Transposing a well-formed matrix. -/
theorem transposeWithValues_spec [Add T] {sort : SortByKey} (hsort : Sorts sort) {s : SparseStructure} (h : WellFormed s) {values : List T}
    (hv : values.length = s.rowIndices.length) :
    ∃ m, transposeWithValues sort s values = .ok m ∧ MatWellFormed m ∧ m.structure'.nrows = s.ncols ∧ m.structure'.ncols = s.nrows ∧
      (∀ i j, Has m.structure' j i ↔ Has s i j) ∧ ∀ i j v, Stored m j i v ↔ Stored ⟨s, values⟩ i j v := by
  set a : TripletMat T := ⟨s.ncols, s.nrows, (positions s).map Prod.fst, (positions s).map Prod.snd, values⟩ with ha
  have hpl := h.positions_length
  have haok : TripletsOk a := by
    refine ⟨by simp [ha, hpl, hv], by simp [ha, hpl, hv], ?_, ?_⟩
    · intro r hr
      obtain ⟨d, hd, rfl⟩ := List.mem_map.1 hr
      exact (h.positionsOk.bound d hd).1
    · intro r hr
      obtain ⟨d, hd, rfl⟩ := List.mem_map.1 hr
      exact (h.positionsOk.bound d hd).2
  have hget : ∀ (p i j : Nat) (v : T), a.triplets[p]? = some (j, i, v) ↔ (positions s)[p]? = some (j, i) ∧ values[p]? = some v := by
    intro p i j v
    rw [triplets_getElem?]
    simp only [ha, List.getElem?_map, Option.map_eq_some_iff]
    constructor
    · rintro ⟨⟨d, h1, h2⟩, ⟨e, h3, h4⟩, h5⟩
      rw [h1] at h3
      obtain rfl := Option.some.inj h3
      rw [h1, ← h2, ← h4]
      exact ⟨rfl, h5⟩
    · rintro ⟨h1, h2⟩
      exact ⟨⟨_, h1, rfl⟩, ⟨_, h1, rfl⟩, h2⟩
  have hpos : a.triplets.map tripletPos = (positions s).map Prod.swap := by
    apply List.ext_getElem?
    intro p
    rw [List.getElem?_map, List.getElem?_map]
    cases hp : (positions s)[p]? with
    | none =>
      rw [List.getElem?_eq_none_iff] at hp
      rw [List.getElem?_eq_none (by simp only [TripletMat.triplets, ha, List.length_zip, List.length_map]; omega)]
      rfl
    | some d =>
      have hp1 := (List.getElem?_eq_some_iff.1 hp).1
      have : values[p]? = some _ := List.getElem?_eq_getElem (by omega)
      rw [(hget p d.2 d.1 _).2 ⟨hp, this⟩]
      rfl
  have hnd : (a.triplets.map tripletPos).Nodup := by
    rw [hpos]
    exact (positionsOk_nodup h.positionsOk.sorted).map Prod.swap_injective
  obtain ⟨m, D, L, h1, h2, h3, h4, h5, h6, h7⟩ := fromTripletMat_spec hsort haok
  have hLnd : (L.map tripletPos).Nodup := (h2.map tripletPos).nodup_iff.2 hnd
  have hmem : ∀ i j, (i, j) ∈ D ↔ (j, i) ∈ positions s := by
    intro i j
    rw [h6]
    constructor
    · rintro ⟨t, ht, he⟩
      obtain ⟨p, hp⟩ := List.mem_iff_getElem?.1 ht
      simp only [tripletPos, Prod.mk.injEq] at he
      have := (hget p t.2.1 t.1 t.2.2).1 hp
      rw [he.1, he.2] at this
      exact List.mem_of_getElem? this.1
    · intro hm
      obtain ⟨p, hp⟩ := List.mem_iff_getElem?.1 hm
      have : values[p]? = some _ := List.getElem?_eq_getElem (by
        have := (List.getElem?_eq_some_iff.1 hp).1
        omega)
      exact ⟨_, List.mem_of_getElem? ((hget p i j _).2 ⟨hp, this⟩), rfl⟩
  have hwf : MatWellFormed m := by
    refine ⟨?_, ?_⟩
    · rw [h4]; exact structOf_wellFormed h3
    · rw [h4, h5]; simp [structOf]
  refine ⟨m, ?_, hwf, by rw [h4]; rfl, by rw [h4]; rfl, ?_, ?_⟩
  · rw [transposeWithValues, transposeColumns h hv]
    exact h1
  · intro i j
    rw [h4, structOf_has h3, h.has, hmem]
  · intro i j v
    unfold Stored
    simp only [h4, structOf_entryAt h3, h.entryAt]
    constructor
    · rintro ⟨p, hp, hpv⟩
      have hm := List.mem_of_getElem? hp
      obtain ⟨q, hq⟩ := List.mem_iff_getElem?.1 ((hmem i j).1 hm)
      have hw : values[q]? = some _ := List.getElem?_eq_getElem (by
        have := (List.getElem?_eq_some_iff.1 hq).1
        omega)
      refine ⟨q, hq, ?_⟩
      rw [h7 p _ hp, show (i, j) = tripletPos (j, i, values[q]'(List.getElem?_eq_some_iff.1 hw).1) from rfl,
        sumAt_single hLnd (h2.mem_iff.2 (List.mem_of_getElem? ((hget q i j _).2 ⟨hq, hw⟩)))] at hpv
      rw [hw]
      exact hpv
    · rintro ⟨q, hq, hqv⟩
      obtain ⟨p, hp⟩ := List.mem_iff_getElem?.1 ((hmem i j).2 (List.mem_of_getElem? hq))
      refine ⟨p, hp, ?_⟩
      rw [h7 p _ hp, show (i, j) = tripletPos (j, i, v) from rfl,
        sumAt_single hLnd (h2.mem_iff.2 (List.mem_of_getElem? ((hget q i j _).2 ⟨hq, hqv⟩)))]

end Fiksi
