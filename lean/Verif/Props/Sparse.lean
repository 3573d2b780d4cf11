import Verif.Proofs.BackSubst
/-!
# Sparse matrices (C31, C32, C33, C34, C36)
-/
namespace Fiksi

open Spec

/-! ## A sorting routine, for the examples -/

/-- The order of the keys. -/
def keyLe (a b : Nat × Nat) : Prop := a.1 < b.1 ∨ (a.1 = b.1 ∧ a.2 ≤ b.2)

instance : DecidableRel keyLe := fun a b => by unfold keyLe; infer_instance

/-- Insertion sort. -/
def exampleSort : SortByKey := fun key l => l.insertionSort (fun a b => keyLe (key a) (key b))

theorem exampleSort_sorts : Sorts exampleSort := by
  intro key l
  refine ⟨List.perm_insertionSort _ _, ?_⟩
  haveI : Std.Total (fun a b => keyLe (key a) (key b)) := ⟨fun a b => by unfold keyLe; omega⟩
  haveI : IsTrans Nat (fun a b => keyLe (key a) (key b)) := ⟨fun a b c h1 h2 => by unfold keyLe at *; omega⟩
  exact List.pairwise_insertionSort (fun a b => keyLe (key a) (key b)) l

/-! ## C31: from triplets -/

variable {T : Type}

/-- C31: everything built with the interface of `TripletMat` satisfies the hypothesis of the theorems below. -/
theorem C31_triplets_ok : (∀ nrows ncols, TripletsOk (TripletMat.new nrows ncols : TripletMat T)) ∧
    (∀ (a : TripletMat T) row col v, TripletsOk a → TripletsOk (a.push row col v) ∧
      (a.push row col v).triplets = a.triplets ++ [(row, col, v)]) ∧
    (∀ (a : TripletMat T), TripletsOk a → TripletsOk a.transpose ∧
      a.transpose.triplets = a.triplets.map (fun t => (t.2.1, t.1, t.2.2))) ∧
    (∀ l : List (Nat × Nat × T), TripletsOk (TripletMat.fromIter l) ∧ (TripletMat.fromIter l).triplets = l) := by
  have hnew : ∀ nrows ncols, TripletsOk (TripletMat.new nrows ncols : TripletMat T) :=
    fun nrows ncols => ⟨rfl, rfl, by simp [TripletMat.new], by simp [TripletMat.new]⟩
  have hpush : ∀ (a : TripletMat T) row col v, TripletsOk a → TripletsOk (a.push row col v) ∧
      (a.push row col v).triplets = a.triplets ++ [(row, col, v)] := by
    intro a row col v h
    refine ⟨⟨by simp [TripletMat.push, h.rows], by simp [TripletMat.push, h.cols], ?_, ?_⟩, ?_⟩
    · intro r hr
      simp only [TripletMat.push, List.mem_append, List.mem_singleton] at *
      rcases hr with hr | rfl
      · have := h.rowBound r hr; omega
      · omega
    · intro r hr
      simp only [TripletMat.push, List.mem_append, List.mem_singleton] at *
      rcases hr with hr | rfl
      · have := h.colBound r hr; omega
      · omega
    · simp only [TripletMat.triplets, TripletMat.push]
      rw [List.zip_append h.cols, List.zip_append (by simp [h.rows, h.cols])]
      rfl
  refine ⟨hnew, hpush, ?_, ?_⟩
  · intro a h
    refine ⟨⟨h.cols, h.rows, h.colBound, h.rowBound⟩, ?_⟩
    apply List.ext_getElem?
    intro p
    rw [List.getElem?_map]
    by_cases hp : p < a.values.length
    · have h1 : a.rowIndices[p]? = some _ := List.getElem?_eq_getElem (by rw [h.rows]; exact hp)
      have h2 : a.colIndices[p]? = some _ := List.getElem?_eq_getElem (by rw [h.cols]; exact hp)
      have h3 : a.values[p]? = some _ := List.getElem?_eq_getElem hp
      have e1 : a.triplets[p]? = some (_, _, _) := triplets_getElem?.2 ⟨h1, h2, h3⟩
      have e2 : a.transpose.triplets[p]? = some (_, _, _) := triplets_getElem?.2 ⟨h2, h1, h3⟩
      rw [e1, e2]
      rfl
    · rw [List.getElem?_eq_none, List.getElem?_eq_none]
      · rfl
      · simp [TripletMat.triplets, h.rows, h.cols]; omega
      · simp [TripletMat.triplets, TripletMat.transpose, h.rows, h.cols]; omega
  · intro l
    have key : ∀ (l pre : List (Nat × Nat × T)) a, TripletsOk a → a.triplets = pre →
        TripletsOk (l.foldl (fun a t => a.push t.1 t.2.1 t.2.2) a) ∧
          (l.foldl (fun a t => a.push t.1 t.2.1 t.2.2) a).triplets = pre ++ l := by
      intro l
      induction l with
      | nil => intro pre a h1 h2; simpa using ⟨h1, h2⟩
      | cons t l ih =>
        intro pre a h1 h2
        have := hpush a t.1 t.2.1 t.2.2 h1
        have := ih (pre ++ [t]) _ this.1 (by rw [this.2, h2])
        simpa using this
    exact key l [] _ (hnew 0 0) rfl

/-- C31, for every type of values: the conversion does not panic; its result is well formed, has the same shape, has an entry exactly
where there are triplets, and its value is the sum of these in some order (floating-point addition depends on the order, and the sort
does not fix it). -/
theorem C31_from_triplets [Add T] {sort : SortByKey} (hsort : Sorts sort) {a : TripletMat T} (ha : TripletsOk a) :
    ∃ m, SparseColMat.fromTripletMat sort a = .ok m ∧ MatWellFormed m ∧ m.structure'.nrows = a.nrows ∧ m.structure'.ncols = a.ncols ∧
      (∀ i j, Has m.structure' i j ↔ tripletValues a i j ≠ []) ∧
      ∀ i j v, Stored m i j v → ∃ l, l.Perm (tripletValues a i j) ∧ sumList l = some v := by
  obtain ⟨m, D, L, h1, h2, h3, h4, h5, h6, h7⟩ := fromTripletMat_spec hsort ha
  refine ⟨m, h1, ⟨by rw [h4]; exact structOf_wellFormed h3, by rw [h4, h5]; simp [structOf]⟩, by rw [h4]; rfl, by rw [h4]; rfl, ?_, ?_⟩
  · intro i j
    rw [h4, structOf_has h3, h6]
    rw [Ne, tripletValues, List.map_eq_nil_iff, List.filter_eq_nil_iff]
    simp only [tripletPos, Prod.mk.injEq, not_forall, decide_eq_true_eq, not_not]
    constructor
    · rintro ⟨t, ht, he⟩
      exact ⟨t, ht, he.2, he.1⟩
    · rintro ⟨t, ht, he⟩
      exact ⟨t, ht, he.2, he.1⟩
  · rintro i j v ⟨p, hp, hv⟩
    rw [h4, structOf_entryAt h3] at hp
    rw [h7 p _ hp] at hv
    refine ⟨_, ?_, hv⟩
    rw [tripletValues]
    have : (fun t : Nat × Nat × T => decide (tripletPos t = (j, i))) = (fun t => decide (t.1 = i ∧ t.2.1 = j)) := by
      funext t
      simp only [tripletPos, Prod.mk.injEq]
      rw [decide_eq_decide]
      exact and_comm
    rw [← this]
    exact (h2.filter _).map _

/-- C31, exact arithmetic: the entry is the sum of the triplets at its position. -/
theorem C31_from_triplets_exact [AddCommMonoid T] {sort : SortByKey} (hsort : Sorts sort) {a : TripletMat T} (ha : TripletsOk a) :
    ∃ m, SparseColMat.fromTripletMat sort a = .ok m ∧ MatWellFormed m ∧ m.structure'.nrows = a.nrows ∧ m.structure'.ncols = a.ncols ∧
      ∀ i j v, Stored m i j v ↔ tripletValues a i j ≠ [] ∧ v = (tripletValues a i j).sum := by
  obtain ⟨m, h1, h2, h3, h4, h5, h6⟩ := C31_from_triplets hsort ha
  have hsum : ∀ (l : List T) v, sumList l = some v → v = l.sum := by
    intro l v hv
    cases l with
    | nil => simp [sumList] at hv
    | cons x xs =>
      simp only [sumList, Option.some.injEq] at hv
      have key : ∀ (xs : List T) x, xs.foldl (· + ·) x = x + xs.sum := by
        intro xs
        induction xs with
        | nil => simp
        | cons y ys ih => intro x; simp [ih, add_assoc]
      rw [← hv, List.sum_cons, key]
  refine ⟨m, h1, h2, h3, h4, ?_⟩
  intro i j v
  constructor
  · intro hs
    obtain ⟨l, hl, hlv⟩ := h6 i j v hs
    refine ⟨(h5 i j).1 (by obtain ⟨p, hp, -⟩ := hs; exact ⟨p, hp⟩), ?_⟩
    rw [hsum l v hlv, hl.sum_eq]
  · rintro ⟨hne, rfl⟩
    obtain ⟨p, hp⟩ := (h5 i j).2 hne
    have hpl : p < m.values.length := by
      obtain ⟨s, e, -, -, -, -, h⟩ := hp
      rw [h2.2]
      exact (List.getElem?_eq_some_iff.1 h).1
    have hs : Stored m i j m.values[p] := ⟨p, hp, List.getElem?_eq_getElem hpl⟩
    obtain ⟨l, hl, hlv⟩ := h6 i j _ hs
    rw [hsum l _ hlv, hl.sum_eq] at hs
    exact hs

/-- Two triplets at one position, given out of order. -/
def exampleTriplets : TripletMat Int := TripletMat.fromIter [(1, 2, 5), (0, 0, 1), (1, 0, 2), (1, 2, -3), (0, 1, 7)]

/-- The hypotheses of C31 are met by a matrix with repeated positions and the result is as expected. -/
theorem C31_case : Sorts exampleSort ∧ TripletsOk exampleTriplets ∧
    SparseColMat.fromTripletMat exampleSort exampleTriplets = .ok ⟨⟨2, 3, [0, 1, 0, 1], [0, 2, 3, 4]⟩, [1, 2, 7, 2]⟩ :=
  ⟨exampleSort_sorts, (C31_triplets_ok.2.2.2 _).1, by decide +kernel⟩

/-! ## C32: validation -/

/-- C32: the data is accepted exactly if it is well formed, and then it is kept as it is. -/
theorem C32_accepted_iff (nrows ncols : Nat) (rows ptrs : List Nat) (s : SparseStructure) :
    SparseStructure.tryFromData nrows ncols rows ptrs = .ok (.ok s) ↔ s = ⟨nrows, ncols, rows, ptrs⟩ ∧ WellFormed s :=
  tryFromData_eq_ok

/-- C32, the part about panics that holds: no panic if no pointer is beyond the entries. -/
theorem C32_no_panic_partial (nrows ncols : Nat) (rows ptrs : List Nat) (h : ∀ p ∈ ptrs, p ≤ rows.length) :
    ∃ r, SparseStructure.tryFromData nrows ncols rows ptrs = .ok r := tryFromData_no_panic h

/-- C32 is false in general: a pointer in the middle that is beyond the entries makes the validation panic instead of returning an
error. -/
theorem C32_panics : SparseStructure.tryFromData 3 3 [0, 1] [0, 5, 6, 2] = .error .indexOutOfBounds := by decide +kernel

/-- C32: the constructors give structures that would be accepted: the identity, … -/
theorem C32_identity_accepted (n : Nat) : SparseStructure.tryFromData n n (SparseStructure.identity n).rowIndices
    (SparseStructure.identity n).columnPointers = .ok (.ok (SparseStructure.identity n)) := by
  rw [tryFromData_eq_ok]
  refine ⟨rfl, ?_⟩
  have hp : ∀ j v, (SparseStructure.identity n).columnPointers[j]? = some v ↔ j ≤ n ∧ v = j := by
    intro j v
    simp only [SparseStructure.identity, List.getElem?_eq_some_iff, List.length_range, List.getElem_range]
    constructor
    · rintro ⟨h, rfl⟩; exact ⟨by omega, rfl⟩
    · rintro ⟨h, rfl⟩; exact ⟨by omega, rfl⟩
  refine ⟨by simp [SparseStructure.identity], (hp _ _).2 ⟨by omega, rfl⟩, (hp _ _).2 ⟨le_refl _, by simp [SparseStructure.identity]⟩, ?_, ?_, ?_⟩
  · intro j a b h1 h2
    have := (hp _ _).1 h1
    have := (hp _ _).1 h2
    omega
  · intro r hr
    simpa [SparseStructure.identity] using hr
  · intro j a b h1 h2 p q r t h3 h4 h5
    have := (hp _ _).1 h1
    have := (hp _ _).1 h2
    omega

/-- C32: … and what comes out of triplets. -/
theorem C32_from_triplets_accepted [Add T] {sort : SortByKey} (hsort : Sorts sort) {a : TripletMat T} (ha : TripletsOk a) :
    ∃ m, SparseColMat.fromTripletMat sort a = .ok m ∧ SparseStructure.tryFromData m.structure'.nrows m.structure'.ncols
      m.structure'.rowIndices m.structure'.columnPointers = .ok (.ok m.structure') := by
  obtain ⟨m, h1, h2, -⟩ := C31_from_triplets hsort ha
  exact ⟨m, h1, tryFromData_eq_ok.2 ⟨rfl, h2.1⟩⟩

/-- C32: a structure is given values exactly if there is one for each of its entries; a shorter or longer list is a panic. Both are kept as they are. -/
theorem C32_one_value_per_entry (s : SparseStructure) (values : List T) :
    (values.length = s.rowIndices.length → SparseColMat.fromStructureAndValues s values = .ok ⟨s, values⟩) ∧
      (values.length ≠ s.rowIndices.length → SparseColMat.fromStructureAndValues s values = .error .assertion) := by
  refine ⟨fun h => ?_, fun h => ?_⟩
  · rw [SparseColMat.fromStructureAndValues, if_pos h.symm]
  · rw [SparseColMat.fromStructureAndValues, if_neg (Ne.symm h)]

/-- C32 is false for `empty`: it has no column pointers, so it would be rejected, and reading one of its columns panics. -/
theorem C32_empty_rejected (nrows ncols : Nat) :
    SparseStructure.tryFromData nrows ncols (SparseStructure.empty nrows ncols).rowIndices (SparseStructure.empty nrows ncols).columnPointers =
      .ok (.error (.badNumberOfPointers (ncols + 1) 0)) ∧
    ∀ col, (SparseStructure.empty nrows ncols).indexColumn col = .error .assertion := by
  constructor
  · simp [SparseStructure.tryFromData, SparseStructure.empty]
  · intro col
    rfl

/-- Well-formed data is accepted, and each kind of malformed data below is reported. -/
theorem C32_case : SparseStructure.tryFromData 3 2 [0, 2, 1] [0, 2, 3] = .ok (.ok ⟨3, 2, [0, 2, 1], [0, 2, 3]⟩) ∧
    SparseStructure.tryFromData 3 2 [2, 0, 1] [0, 2, 3] = .ok (.error (.unorderedIndex 0 1 2 0)) ∧
    SparseStructure.tryFromData 3 2 [0, 3, 1] [0, 2, 3] = .ok (.error (.indexOutOfBounds 0 1 3 3)) ∧
    SparseStructure.tryFromData 3 3 [0, 1, 2] [0, 2, 1, 3] = .ok (.error (.unorderedPointer 1 2 1)) ∧
    SparseStructure.tryFromData 3 2 [0, 1, 1] [0, 3, 3] = .ok (.error (.unorderedIndex 0 2 1 1)) := by decide +kernel

/-! ## C33: transposing -/

/-- C33: the transpose of a well-formed matrix is well formed and stores in `(j, i)` what the matrix stores in `(i, j)`. -/
theorem C33_transpose [Add T] {sort : SortByKey} (hsort : Sorts sort) {a : SparseColMat T} (ha : MatWellFormed a) :
    ∃ m, a.transpose sort = .ok m ∧ MatWellFormed m ∧ m.structure'.nrows = a.structure'.ncols ∧ m.structure'.ncols = a.structure'.nrows ∧
      ∀ i j v, Stored m j i v ↔ Stored a i j v := by
  obtain ⟨m, h1, h2, h3, h4, -, h5⟩ := transposeWithValues_spec hsort ha.1 ha.2
  exact ⟨m, h1, h2, h3, h4, h5⟩

/-- C33: transposing twice gives back the very same representation. -/
theorem C33_transpose_twice [Add T] {sort : SortByKey} (hsort : Sorts sort) {a : SparseColMat T} (ha : MatWellFormed a) :
    (do let m ← a.transpose sort; m.transpose sort) = .ok a := by
  obtain ⟨m, h1, h2, h3, h4, h5⟩ := C33_transpose hsort ha
  obtain ⟨m', g1, g2, g3, g4, g5⟩ := C33_transpose hsort h2
  rw [h1, ok_bind, g1]
  congr 1
  exact matWellFormed_ext g2 ha (by rw [g3, h4]) (by rw [g4, h3]) (fun i j v => by rw [g5, h5])

/-- C33, for structures. -/
theorem C33_structure_transpose {sort : SortByKey} (hsort : Sorts sort) {s : SparseStructure} (hs : WellFormed s) :
    ∃ s', s.transpose sort = .ok s' ∧ WellFormed s' ∧ s'.nrows = s.ncols ∧ s'.ncols = s.nrows ∧ (∀ i j, Has s' j i ↔ Has s i j) ∧
      s'.transpose sort = .ok s := by
  have key : ∀ s : SparseStructure, WellFormed s → ∃ s', s.transpose sort = .ok s' ∧ WellFormed s' ∧ s'.nrows = s.ncols ∧ s'.ncols = s.nrows ∧
      ∀ i j, Has s' j i ↔ Has s i j := by
    intro s hs
    obtain ⟨m, h1, h2, h3, h4, h5, -⟩ := transposeWithValues_spec (T := Dummy) hsort hs (values := List.replicate s.rowIndices.length Dummy.mk)
      (by simp)
    exact ⟨m.structure', by rw [SparseStructure.transpose, h1]; rfl, h2.1, h3, h4, h5⟩
  obtain ⟨s', h1, h2, h3, h4, h5⟩ := key s hs
  obtain ⟨s'', g1, g2, g3, g4, g5⟩ := key s' h2
  refine ⟨s', h1, h2, h3, h4, h5, ?_⟩
  rw [g1]
  congr 1
  exact wellFormed_ext g2 hs (by rw [g3, h4]) (by rw [g4, h3]) (fun i j => by rw [g5, h5])

/-- A matrix with an empty column and several entries in a row. -/
def exampleMatrix : SparseColMat Int := ⟨⟨2, 4, [0, 1, 1, 0, 1], [0, 2, 2, 3, 5]⟩, [1, 2, 3, 4, 5]⟩

theorem exampleMatrix_ok : MatWellFormed exampleMatrix :=
  ⟨((tryFromData_eq_ok (nrows := 2) (ncols := 4) (rows := [0, 1, 1, 0, 1]) (ptrs := [0, 2, 2, 3, 5]) (s := exampleMatrix.structure')).1
    (by decide +kernel)).2, rfl⟩

/-- The hypotheses of C33 are met by a matrix with an empty column. -/
theorem C33_case : MatWellFormed exampleMatrix ∧ exampleMatrix.transpose exampleSort = .ok ⟨⟨4, 2, [0, 3, 0, 2, 3], [0, 2, 5]⟩, [1, 4, 2, 3, 5]⟩ :=
  ⟨exampleMatrix_ok, by decide +kernel⟩

/-! ## C34: permuting columns -/

/-- C34, for structures: column `k` of the result is column `permutation[k]`; the list need not be a permutation. -/
theorem C34_permute_structure {s : SparseStructure} (hs : WellFormed s) {perm : List Nat} (hperm : ∀ c ∈ perm, c < s.ncols) :
    ∃ s', s.permuteColumns perm = .ok s' ∧ WellFormed s' ∧ s'.nrows = s.nrows ∧ s'.ncols = perm.length ∧
      ∀ i k, Has s' i k ↔ ∃ c, perm[k]? = some c ∧ Has s i c := by
  obtain ⟨h1, h2⟩ := permuteColumns_spec (T := Unit) hs hperm (values := List.replicate s.rowIndices.length ()) (by simp)
  refine ⟨_, by rw [SparseStructure.permuteColumns, h1]; rfl, structOf_wellFormed h2, rfl, rfl, ?_⟩
  intro i k
  rw [structOf_has h2, mem_permPositions hs hperm]

/-- C34, what the version for matrices does: the structure is permuted, but the values are the values of the whole matrix, in their
old order, once for each column of the result. -/
theorem C34_permute_matrix_partial {a : SparseColMat T} (ha : MatWellFormed a) {perm : List Nat} (hperm : ∀ c ∈ perm, c < a.structure'.ncols) :
    ∃ m s', a.permuteColumns perm = .ok m ∧ a.structure'.permuteColumns perm = .ok s' ∧ m.structure' = s' ∧
      m.values = (List.replicate perm.length a.values).flatten := by
  obtain ⟨h1, h2⟩ := permuteColumns_spec (T := T) ha.1 hperm (values := a.values) ha.2
  obtain ⟨h3, -⟩ := permuteColumns_spec (T := Unit) ha.1 hperm (values := List.replicate a.structure'.rowIndices.length ()) (by simp)
  exact ⟨_, _, h1, by rw [SparseStructure.permuteColumns, h3]; rfl, rfl, rfl⟩

/-- C34 is false for matrices: exchanging the two columns of the diagonal matrix `diag(1, 2)` stores `1` where `2` should be, and the
result has four values for two entries. -/
theorem C34_values_wrong : ∃ (a m : SparseColMat Int), MatWellFormed a ∧ a.permuteColumns [1, 0] = .ok m ∧
    Stored a 1 1 2 ∧ ¬ Stored m 1 0 2 ∧ Stored m 1 0 1 ∧ ¬ MatWellFormed m := by
  have hw : WellFormed ⟨2, 2, [0, 1], [0, 1, 2]⟩ :=
    ((tryFromData_eq_ok (nrows := 2) (ncols := 2) (rows := [0, 1]) (ptrs := [0, 1, 2]) (s := ⟨2, 2, [0, 1], [0, 1, 2]⟩)).1 (by decide +kernel)).2
  have hw' : WellFormed ⟨2, 2, [1, 0], [0, 1, 2]⟩ :=
    ((tryFromData_eq_ok (nrows := 2) (ncols := 2) (rows := [1, 0]) (ptrs := [0, 1, 2]) (s := ⟨2, 2, [1, 0], [0, 1, 2]⟩)).1 (by decide +kernel)).2
  have hst : Stored (⟨⟨2, 2, [1, 0], [0, 1, 2]⟩, [1, 2, 1, 2]⟩ : SparseColMat Int) 1 0 1 :=
    ⟨0, ⟨0, 1, rfl, rfl, by omega, by omega, rfl⟩, rfl⟩
  refine ⟨⟨⟨2, 2, [0, 1], [0, 1, 2]⟩, [1, 2]⟩, ⟨⟨2, 2, [1, 0], [0, 1, 2]⟩, [1, 2, 1, 2]⟩, ⟨hw, rfl⟩, by decide +kernel,
    ⟨1, ⟨1, 2, rfl, rfl, by omega, by omega, rfl⟩, rfl⟩, ?_, hst, ?_⟩
  · intro h
    have := stored_unique hw' h hst
    simp at this
  · intro h
    have := h.2
    simp at this

/-- The hypotheses of C34 are met. -/
theorem C34_case : WellFormed exampleMatrix.structure' ∧ exampleMatrix.structure'.permuteColumns [3, 1, 0, 2] =
    .ok ⟨2, 4, [0, 1, 0, 1, 1], [0, 2, 2, 4, 5]⟩ := ⟨exampleMatrix_ok.1, by decide +kernel⟩

/-! ## C36: back substitution -/

/-- C36: no panic; if the result is `true`, the diagonal has no zero, nothing is stored below the diagonal, and `b` holds the solution. -/
theorem C36_solution {a : SparseColMat ℝ} (ha : MatWellFormed a) {U : Nat → Nat → ℝ} (hU : Represents a U)
    (hn : a.structure'.nrows ≤ a.structure'.ncols) (b : List ℝ) (hb : b.length = a.structure'.nrows) :
    ∃ flag b', a.solveUpperTriangular b = .ok (flag, b') ∧ b'.length = b.length ∧
      (flag = true → (∀ i < a.structure'.nrows, U i i ≠ 0) ∧ (∀ i j, j < a.structure'.nrows → Has a.structure' i j → i ≤ j) ∧
        ∀ i < a.structure'.nrows, ∑ j ∈ Finset.Ico i a.structure'.nrows, U i j * b'.getD j 0 = b.getD i 0) := by
  obtain ⟨flag, b', h1, h2, h3, -⟩ := solveUpperLoop_spec ha hU a.structure'.nrows a.structure'.nrows (le_refl _) hn b b hb
    (by intro i h1 h2; omega) (by intro i hi; simp) (by intro i h1 h2; omega)
  refine ⟨flag, b', ?_, by rw [h2, hb], ?_⟩
  · rw [SparseColMat.solveUpperTriangular, if_neg (by simp [SparseColMat.nrows, hb])]
    exact h1
  · intro hf
    obtain ⟨g1, g2, g3⟩ := h3 hf
    refine ⟨g1, ?_, g3⟩
    intro i j hj hh
    have hl := g2 j hj
    have hm := (ha.1.mem_columnRows (by omega)).2 hh
    exact (by
      obtain ⟨pre, hpre⟩ := List.getLast?_eq_some_iff.1 hl
      have hs := ha.1.columnRows_sorted (j := j) (by omega)
      rw [hpre] at hm hs
      rcases List.mem_append.1 hm with hm | hm
      · exact le_of_lt ((List.pairwise_append.1 hs).2.2 i hm j (by simp))
      · rw [List.mem_singleton] at hm
        exact le_of_eq hm)

/-- C36, for matrices that store nothing below the diagonal: `false` is returned exactly if a diagonal entry is zero. -/
theorem C36_false_iff_partial {a : SparseColMat ℝ} (ha : MatWellFormed a) {U : Nat → Nat → ℝ} (hU : Represents a U)
    (hn : a.structure'.nrows ≤ a.structure'.ncols) (hup : ∀ i j, j < a.structure'.nrows → Has a.structure' i j → i ≤ j)
    (b : List ℝ) (hb : b.length = a.structure'.nrows) :
    ∃ flag b', a.solveUpperTriangular b = .ok (flag, b') ∧ (flag = false ↔ ∃ i < a.structure'.nrows, U i i = 0) := by
  obtain ⟨flag, b', h1, h2, h3, h4⟩ := solveUpperLoop_spec ha hU a.structure'.nrows a.structure'.nrows (le_refl _) hn b b hb
    (by intro i h1 h2; omega) (by intro i hi; simp) (by intro i h1 h2; omega)
  refine ⟨flag, b', ?_, h4 hup, ?_⟩
  · rw [SparseColMat.solveUpperTriangular, if_neg (by simp [SparseColMat.nrows, hb])]
    exact h1
  · rintro ⟨i, hi, h0⟩
    cases flag with
    | false => rfl
    | true => exact absurd h0 ((h3 rfl).1 i hi)

/-- C36 is false for matrices with entries below the diagonal, although the documentation says they are ignored: for the matrix with rows
`(1, 0)` and `(1, 1)` the result is `false` although both diagonal entries are one. -/
theorem C36_lower_not_ignored : ∃ (a : SparseColMat ℝ) (b : List ℝ) (U : Nat → Nat → ℝ), MatWellFormed a ∧ Represents a U ∧ U 0 0 = 1 ∧ U 1 1 = 1 ∧
    a.structure'.nrows = 2 ∧ a.structure'.ncols = 2 ∧ b.length = 2 ∧ ∃ b', a.solveUpperTriangular b = .ok (false, b') := by
  have hw : WellFormed ⟨2, 2, [0, 1, 1], [0, 2, 3]⟩ :=
    ((tryFromData_eq_ok (nrows := 2) (ncols := 2) (rows := [0, 1, 1]) (ptrs := [0, 2, 3]) (s := ⟨2, 2, [0, 1, 1], [0, 2, 3]⟩)).1 (by decide +kernel)).2
  have hpos : positions ⟨2, 2, [0, 1, 1], [0, 2, 3]⟩ = [(0, 0), (0, 1), (1, 1)] := by decide +kernel
  refine ⟨⟨⟨2, 2, [0, 1, 1], [0, 2, 3]⟩, [1, 1, 1]⟩, [1, 1], fun i j => if (j, i) ∈ [(0, 0), (0, 1), (1, 1)] then 1 else 0, ⟨hw, rfl⟩, ⟨?_, ?_⟩,
    by simp, by simp, rfl, rfl, rfl, ?_⟩
  · rintro i j v ⟨p, hp, hv⟩
    rw [hw.entryAt, hpos] at hp
    rw [if_pos (List.mem_of_getElem? hp)]
    have hm := List.mem_of_getElem? hv
    simp only [List.mem_cons, List.not_mem_nil, or_false, or_self] at hm
    exact hm.symm
  · intro i j hh
    rw [hw.has, hpos] at hh
    rw [if_neg hh]
  · refine ⟨[1, 1 / 1], ?_⟩
    simp [SparseColMat.solveUpperTriangular, SparseColMat.nrows, solveUpperLoop, SparseColMat.indexColumn, SparseStructure.indexColumnRange,
      sliceIdx, idx, setIdx, lastDiagonal, unwrap, FloatOps.eqB, List.takeWhile, subtractEntry]

/-- The hypotheses of C36 are met by `2 x + y = 4, 3 y = 6`, and the solution is found. -/
theorem C36_case : ∃ (a : SparseColMat ℝ) (U : Nat → Nat → ℝ), MatWellFormed a ∧ Represents a U ∧ U 0 0 = 2 ∧ U 0 1 = 1 ∧ U 1 1 = 3 ∧
    a.structure'.nrows = 2 ∧ a.structure'.ncols = 2 ∧ (∀ i j, j < a.structure'.nrows → Has a.structure' i j → i ≤ j) ∧
    a.solveUpperTriangular [4, 6] = .ok (true, [1, 2]) := by
  have hw : WellFormed ⟨2, 2, [0, 0, 1], [0, 1, 3]⟩ :=
    ((tryFromData_eq_ok (nrows := 2) (ncols := 2) (rows := [0, 0, 1]) (ptrs := [0, 1, 3]) (s := ⟨2, 2, [0, 0, 1], [0, 1, 3]⟩)).1 (by decide +kernel)).2
  have hpos : positions ⟨2, 2, [0, 0, 1], [0, 1, 3]⟩ = [(0, 0), (1, 0), (1, 1)] := by decide +kernel
  refine ⟨⟨⟨2, 2, [0, 0, 1], [0, 1, 3]⟩, [2, 1, 3]⟩,
    fun i j => if (j, i) = (0, 0) then 2 else if (j, i) = (1, 0) then 1 else if (j, i) = (1, 1) then 3 else 0, ⟨hw, rfl⟩, ⟨?_, ?_⟩,
    by simp, by simp, by simp, rfl, rfl, ?_, ?_⟩
  · rintro i j v ⟨p, hp, hv⟩
    rw [hw.entryAt, hpos] at hp
    rcases p with _ | _ | _ | p
    · simp at hp hv; simp [← hp.1, ← hp.2, hv]
    · simp at hp hv; simp [← hp.1, ← hp.2, hv]
    · simp at hp hv; simp [← hp.1, ← hp.2, hv]
    · simp at hp
  · intro i j hh
    rw [hw.has, hpos] at hh
    simp only [List.mem_cons, List.not_mem_nil, or_false, not_or] at hh
    simp only [if_neg hh.1, if_neg hh.2.1, if_neg hh.2.2]
  · intro i j hj hh
    rw [hw.has, hpos] at hh
    simp only [List.mem_cons, Prod.mk.injEq, List.not_mem_nil, or_false] at hh
    omega
  · simp [SparseColMat.solveUpperTriangular, SparseColMat.nrows, solveUpperLoop, SparseColMat.indexColumn, SparseStructure.indexColumnRange,
      sliceIdx, idx, setIdx, lastDiagonal, unwrap, FloatOps.eqB, List.takeWhile, subtractEntry]
    norm_num

end Fiksi
