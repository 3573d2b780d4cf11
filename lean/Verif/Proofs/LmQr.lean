import Verif.Model.LmQr
import Verif.Props.Qr
import Verif.Props.LmTermination
/-!
# The QR model is an exact linear solver
-/
namespace Fiksi

set_option linter.unusedSectionVars false
variable {F : Type} [Add F] [Sub F] [Mul F] [Div F] [Neg F] [Zero F] [One F] [FloatOps F]

open Spec

theorem tripletsOf_spec {m n : Nat} {ts : List (Nat × Nat × F)} (h : Spec.Augmented m n ts) :
    TripletsOk (tripletsOf m n ts) ∧ (tripletsOf m n ts).triplets = ts ∧ (tripletsOf m n ts).nrows = m + n ∧ (tripletsOf m n ts).ncols = n := by
  have key : ∀ (l pre : List (Nat × Nat × F)) (a : TripletMat F), TripletsOk a → a.triplets = pre →
      let a' := l.foldl (fun a t => a.push t.1 t.2.1 t.2.2) a
      TripletsOk a' ∧ a'.triplets = pre ++ l ∧ a.nrows ≤ a'.nrows ∧ a.ncols ≤ a'.ncols ∧
        (∀ t ∈ l, t.1 < a'.nrows) ∧ (∀ M N, a.nrows ≤ M → a.ncols ≤ N → (∀ t ∈ l, t.1 < M ∧ t.2.1 < N) → a'.nrows ≤ M ∧ a'.ncols ≤ N) := by
    intro l
    induction l with
    | nil => intro pre a h1 h2; simpa using ⟨h1, h2, fun M N h h' => ⟨h, h'⟩⟩
    | cons t l ih =>
      intro pre a h1 h2
      have h3 := C31_triplets_ok.2.1 a t.1 t.2.1 t.2.2 h1
      obtain ⟨g1, g2, g3, g4, g5, g6⟩ := ih (pre ++ [t]) _ h3.1 (by rw [h3.2, h2])
      have e1 : (a.push t.1 t.2.1 t.2.2).nrows = max a.nrows (t.1 + 1) := rfl
      have e2 : (a.push t.1 t.2.1 t.2.2).ncols = max a.ncols (t.2.1 + 1) := rfl
      rw [e1] at g3
      rw [e2] at g4
      refine ⟨g1, by simpa using g2, by simp only [List.foldl_cons]; omega, by simp only [List.foldl_cons]; omega, ?_, ?_⟩
      · intro t' ht'
        rcases List.mem_cons.1 ht' with rfl | ht'
        · simp only [List.foldl_cons]; omega
        · exact g5 t' ht'
      · intro M N hM hN hall
        have := hall t (by simp)
        exact g6 M N (by rw [e1]; omega) (by rw [e2]; omega) (fun t' ht' => hall t' (by simp [ht']))
  obtain ⟨top, htop, rfl⟩ := h
  obtain ⟨g1, g2, g3, g4, g5, g6⟩ := key (top ++ (List.range n).map (fun i => (m + i, i, (0 : F)))) [] (TripletMat.new m n) (C31_triplets_ok.1 m n) rfl
  have e1 : (TripletMat.new m n : TripletMat F).nrows = m := rfl
  have e2 : (TripletMat.new m n : TripletMat F).ncols = n := rfl
  obtain ⟨k1, k2⟩ := g6 (m + n) n (by rw [e1]; omega) (by rw [e2]) (by
    intro t ht
    rcases List.mem_append.1 ht with ht | ht
    · have := htop t ht; omega
    · obtain ⟨i, hi, rfl⟩ := List.mem_map.1 ht
      have := List.mem_range.1 hi
      simp only
      omega)
  refine ⟨g1, g2, ?_, by rw [e2] at g4; exact le_antisymm k2 g4⟩
  apply le_antisymm k1
  cases n with
  | zero => exact g3
  | succ n =>
    have := g5 (m + n, n, 0) (List.mem_append.2 (.inr (List.mem_map.2 ⟨n, by simp, rfl⟩)))
    exact this

theorem tripletValues_iff {m n : Nat} {ts : List (Nat × Nat × F)} (h : Spec.Augmented m n ts) (i j : Nat) :
    tripletValues (tripletsOf m n ts) i j ≠ [] ↔ (i, j) ∈ Spec.positions ts := by
  rw [tripletValues, (tripletsOf_spec h).2.1, Ne, List.map_eq_nil_iff, List.filter_eq_nil_iff, Spec.positions, List.mem_map]
  simp only [decide_eq_true_eq, not_forall, not_not, Prod.mk.injEq]
  constructor
  · rintro ⟨t, ht, h1, h2⟩; exact ⟨t, ht, h1, h2⟩
  · rintro ⟨t, ht, h1, h2⟩; exact ⟨t, ht, h1, h2⟩

theorem Spec.Augmented.position {m n : Nat} {ts : List (Nat × Nat × F)} (h : Spec.Augmented m n ts) {i j : Nat} (hij : (i, j) ∈ Spec.positions ts) :
    j < n ∧ (i < m ∨ i = m + j) := by
  obtain ⟨top, htop, rfl⟩ := h
  rw [Spec.positions, List.mem_map] at hij
  obtain ⟨t, ht, he⟩ := hij
  cases he
  rcases List.mem_append.1 ht with ht | ht
  · exact ⟨(htop t ht).2, .inl (htop t ht).1⟩
  · obtain ⟨i, hi, rfl⟩ := List.mem_map.1 ht
    exact ⟨List.mem_range.1 hi, .inr rfl⟩

theorem Spec.Augmented.damping {m n : Nat} {ts : List (Nat × Nat × F)} (h : Spec.Augmented m n ts) {j : Nat} (hj : j < n) :
    (m + j, j) ∈ Spec.positions ts := by
  obtain ⟨top, htop, rfl⟩ := h
  rw [Spec.positions, List.mem_map]
  exact ⟨(m + j, j, 0), List.mem_append.2 (.inr (List.mem_map.2 ⟨j, List.mem_range.2 hj, rfl⟩)), rfl⟩

/-- The compressed matrix: where it has entries and what it stores. -/
theorem compressed_spec {sort : SortByKey} (hsort : Sorts sort) {m n : Nat} {ts : List (Nat × Nat × ℝ)} (h : Spec.Augmented m n ts) :
    ∃ a, SparseColMat.fromTripletMat sort (tripletsOf m n ts) = .ok a ∧ MatWellFormed a ∧ a.structure'.nrows = m + n ∧ a.structure'.ncols = n ∧
      (∀ i j, Has a.structure' i j ↔ (i, j) ∈ Spec.positions ts) ∧ ∀ i j v, Stored a i j v → v = entrySum ts i j := by
  obtain ⟨g1, g2, g3, g4⟩ := tripletsOf_spec h
  obtain ⟨a, h1, h2, h3, h4, h5⟩ := C31_from_triplets_exact hsort g1
  refine ⟨a, h1, h2, h3.trans g3, h4.trans g4, ?_, ?_⟩
  · intro i j
    rw [← tripletValues_iff h]
    constructor
    · rintro ⟨p, hp⟩
      have hpl : p < a.values.length := by
        obtain ⟨s, e, -, -, -, -, h⟩ := hp
        rw [h2.2]
        exact (List.getElem?_eq_some_iff.1 h).1
      exact ((h5 i j _).1 ⟨p, hp, List.getElem?_eq_getElem hpl⟩).1
    · intro hne
      obtain ⟨p, hp, -⟩ := (h5 i j _).2 ⟨hne, rfl⟩
      exact ⟨p, hp⟩
  · intro i j v hv
    have := ((h5 i j v).1 hv).2
    rw [this, tripletValues, g2, entrySum]

/-- The last position of column `j`. -/
theorem damping_position {m n : Nat} {ts : List (Nat × Nat × F)} (h : Spec.Augmented m n ts) {s : SparseStructure} (hs : WellFormed s)
    (hn : s.ncols = n) (hhas : ∀ i j, Has s i j ↔ (i, j) ∈ Spec.positions ts) {j : Nat} (hj : j < n) :
    s.columnPointers.getD j 0 < s.columnPointers.getD (j + 1) 0 ∧
    ∀ i p, EntryAt s i j p → (i = m + j ↔ p = s.columnPointers.getD (j + 1) 0 - 1) := by
  obtain ⟨p₀, start, stop, h1, h2, h3, h4, h5⟩ := (hhas (m + j) j).2 (h.damping hj)
  have e1 : s.columnPointers.getD j 0 = start := by rw [List.getD_eq_getElem?_getD, h1]; rfl
  have e2 : s.columnPointers.getD (j + 1) 0 = stop := by rw [List.getD_eq_getElem?_getD, h2]; rfl
  rw [e1, e2]
  refine ⟨by omega, ?_⟩
  have hbnd : stop ≤ s.rowIndices.length := by
    have := hs.pointer_le (j := j + 1) (by omega)
    rwa [e2] at this
  have hlast : ∃ r, s.rowIndices[stop - 1]? = some r := ⟨s.rowIndices[stop - 1], List.getElem?_eq_getElem (by omega)⟩
  obtain ⟨r, hr⟩ := hlast
  have hrj : Has s r j := ⟨stop - 1, start, stop, h1, h2, by omega, by omega, hr⟩
  have hcase := h.position ((hhas _ _).1 hrj)
  have hp₀ : p₀ = stop - 1 := by
    by_contra hne
    have := hs.sorted j start stop h1 h2 p₀ (stop - 1) (m + j) r h3 (by omega) (by omega) h5 hr
    omega
  rintro i p ⟨start', stop', k1, k2, k3, k4, k5⟩
  rw [h1] at k1
  rw [h2] at k2
  obtain rfl := Option.some.inj k1
  obtain rfl := Option.some.inj k2
  constructor
  · rintro rfl
    by_contra hne
    have := hs.sorted j start stop h1 h2 p p₀ (m + j) (m + j) k3 (by omega) (by omega) k5 h5
    omega
  · rintro rfl
    rw [hp₀] at h5
    rw [h5] at k5
    exact (Option.some.inj k5).symm

/-- Setting the damping. -/
theorem setDamping_spec {a : SparseColMat F} (ha : MatWellFormed a) (μ : F)
    (hne : ∀ j, j < a.structure'.ncols → a.structure'.columnPointers.getD j 0 < a.structure'.columnPointers.getD (j + 1) 0) :
    ∃ a', (List.range a.structure'.ncols).foldlM (setDamping μ) a = .ok a' ∧ a'.structure' = a.structure' ∧ a'.values.length = a.values.length ∧
      (∀ j, j < a.structure'.ncols → a'.values[a.structure'.columnPointers.getD (j + 1) 0 - 1]? = some μ) ∧
      ∀ p, (∀ j, j < a.structure'.ncols → p ≠ a.structure'.columnPointers.getD (j + 1) 0 - 1) → a'.values[p]? = a.values[p]? := by
  obtain ⟨a', h1, h2, h3, h4, h5⟩ := foldlM_range (fun k (a' : SparseColMat F) => a'.structure' = a.structure' ∧ a'.values.length = a.values.length ∧
      (∀ j, j < k → j < a.structure'.ncols → a'.values[a.structure'.columnPointers.getD (j + 1) 0 - 1]? = some μ) ∧
      ∀ p, (∀ j, j < a.structure'.ncols → p ≠ a.structure'.columnPointers.getD (j + 1) 0 - 1) → a'.values[p]? = a.values[p]?)
    (setDamping μ) a.structure'.ncols a ⟨rfl, rfl, by simp, by simp⟩ (by
    rintro k hk a' ⟨e1, e2, e3, e4⟩
    have hlt := hne k hk
    have hle := ha.1.pointer_le (j := k + 1) (by omega)
    have hlen := ha.2
    rw [setDamping, e1, ha.1.indexColumnRange hk, ok_bind]
    simp only
    rw [sliceIdx_of (by omega) (by omega), ok_bind, sliceIdx_of (by omega) (by omega), ok_bind, if_neg (by
      rw [List.length_take, List.length_drop]; omega), setIdx_of _ (by omega), ok_bind]
    refine ⟨_, rfl, rfl, by simpa using e2, ?_, ?_⟩
    · intro j hj hjn
      simp only
      rw [List.getElem?_set]
      split
      · rw [if_pos (by omega)]
      · rename_i hne'
        refine e3 j ?_ hjn
        rcases Nat.lt_succ_iff_lt_or_eq.1 hj with h | rfl
        · exact h
        · exact absurd rfl hne'
    · intro p hp
      simp only
      rw [List.getElem?_set_ne (fun h => hp k hk h.symm)]
      exact e4 p hp)
  exact ⟨a', h1, h2, h3, fun j hj => h4 j hj hj, h5⟩

/-- The damped matrix. -/
noncomputable def dampedEntry (ts : List (Nat × Nat × ℝ)) (m n : Nat) (μ : ℝ) (i j : Nat) : ℝ :=
  if i < m then entrySum ts i j else if i = m + j ∧ j < n then μ else 0

theorem damped_spec {sort : SortByKey} (hsort : Sorts sort) {m n : Nat} {ts : List (Nat × Nat × ℝ)} (h : Spec.Augmented m n ts) (μ : ℝ) :
    ∃ a a', SparseColMat.fromTripletMat sort (tripletsOf m n ts) = .ok a ∧ (List.range n).foldlM (setDamping μ) a = .ok a' ∧
      WellFormed a.structure' ∧ MatWellFormed a' ∧ a'.structure' = a.structure' ∧ a'.structure'.nrows = m + n ∧ a'.structure'.ncols = n ∧
      (∀ i j, Has a'.structure' i j ↔ (i, j) ∈ Spec.positions ts) ∧ Represents a' (dampedEntry ts m n μ) := by
  obtain ⟨a, h1, h2, h3, h4, h5, h6⟩ := compressed_spec hsort h
  have hpos := fun j (hj : j < n) => damping_position h h2.1 h4 h5 hj
  obtain ⟨a', g1, g2, g3, g4, g5⟩ := setDamping_spec h2 μ (fun j hj => (hpos j (by omega)).1)
  rw [h4] at g1 g4 g5
  refine ⟨a, a', h1, g1, h2.1, ⟨by rw [g2]; exact h2.1, by rw [g2, g3, h2.2]⟩, g2, by rw [g2, h3], by rw [g2, h4], by rw [g2]; exact h5, ?_, ?_⟩
  · rintro i j v ⟨p, hp, hv⟩
    rw [g2] at hp
    have hij := h.position ((h5 i j).1 ⟨p, hp⟩)
    obtain ⟨hj, hij⟩ := hij
    have hlast := (hpos j hj).2 i p hp
    rw [dampedEntry]
    by_cases hm : i < m
    · rw [if_pos hm]
      have hnot : ∀ j', j' < n → p ≠ a.structure'.columnPointers.getD (j' + 1) 0 - 1 := by
        intro j' hj' he
        obtain ⟨start, stop, k1, k2, k3, k4, k5⟩ := hp
        have e1 : a.structure'.columnPointers.getD j 0 = start := by rw [List.getD_eq_getElem?_getD, k1]; rfl
        have e2 : a.structure'.columnPointers.getD (j + 1) 0 = stop := by rw [List.getD_eq_getElem?_getD, k2]; rfl
        rcases Nat.lt_trichotomy j j' with hlt | rfl | hgt
        · have := h2.1.pointer_mono (i := j + 1) (j := j') (by omega) (by omega)
          have := (hpos j' hj').1
          omega
        · have := hlast.2 he
          omega
        · have := h2.1.pointer_mono (i := j' + 1) (j := j) (by omega) (by omega)
          have := (hpos j' hj').1
          omega
      rw [g5 p hnot] at hv
      exact (h6 i j v ⟨p, hp, hv⟩).symm
    · rw [if_neg hm, if_pos ⟨by omega, hj⟩]
      have := hlast.1 (by omega)
      rw [this, g4 j hj] at hv
      exact Option.some.inj hv
  · intro i j hno
    rw [g2, h5] at hno
    rw [dampedEntry]
    split
    · rw [entrySum]
      have : ts.filter (fun t => t.1 = i ∧ t.2.1 = j) = [] := by
        rw [List.filter_eq_nil_iff]
        intro t ht he
        simp only [decide_eq_true_eq] at he
        exact hno (List.mem_map.2 ⟨t, ht, by rw [he.1, he.2]⟩)
      rw [this]
      rfl
    · rw [if_neg]
      rintro ⟨rfl, hj⟩
      exact hno (h.damping hj)

/-- A structure whose positions are among those of triplets has at most as many entries. -/
theorem entries_le {a : SparseStructure} (ha : WellFormed a) {ts : List (Nat × Nat × F)} (h : ∀ i j, Has a i j ↔ (i, j) ∈ Spec.positions ts) :
    a.rowIndices.length ≤ ts.length := by
  have h1 : a.rowIndices = (Fiksi.positions a).map Prod.snd := by
    conv_lhs => rw [ha.eq_structOf]
    rfl
  have h2 : (Fiksi.positions a).Nodup := ha.positionsOk.sorted.imp (fun {x y} hxy => by rintro rfl; exact lexLt_irrefl hxy)
  have h3 : Fiksi.positions a ⊆ (Spec.positions ts).map (fun p => (p.2, p.1)) := by
    rintro ⟨j, i⟩ hji
    exact List.mem_map.2 ⟨(i, j), (h i j).1 (ha.has.2 hji), rfl⟩
  have := (h2.subperm h3).length_le
  rw [h1, List.length_map]
  simpa [Spec.positions] using this

/-- The linear solver of the crate, in exact arithmetic, is exact. -/
theorem qrLeastSquares_exact {sort : SortByKey} (hsort : Sorts sort) {order : SparseStructure → R (List Nat)} {S : Nat → Nat → Nat → Prop}
    (horder : ∀ a m n k, WellFormed a → a.nrows = m + n → a.ncols = n → a.rowIndices.length ≤ k → S m n k → OrdersColumns order a) :
    (qrLeastSquares sort order : LeastSquares ℝ).Exact S := by
  intro m n ts₀ h0 hS
  obtain ⟨a₀, k1, k2, k3, k4, k5, -⟩ := compressed_spec hsort h0
  have hfull : FullRank a₀.structure' := by
    refine ⟨fun c => m + c, fun c hc => (k5 _ _).2 (h0.damping (by omega)), fun c c' _ _ he => by simpa using he⟩
  obtain ⟨s, pa, S, b1, o, sh⟩ := build_spec (horder _ m n _ k2.1 k3 k4 (entries_le k2.1 k5) hS) k2.1 hfull .colamd
  refine ⟨s, ?_, ?_⟩
  · show (do let a ← SparseColMat.fromTripletMat sort (tripletsOf m n ts₀); SymbolicQr.build order a.structure' .colamd) = _
    rw [k1, ok_bind, b1]
    rfl
  · intro ts μ b h hpos hμ hb
    obtain ⟨a, a', g1, g2, g3, g4, g5, g6, g7, g8, g9⟩ := damped_spec hsort h μ
    have hst : a'.structure' = a₀.structure' := wellFormed_ext g4.1 k2.1 (by rw [g6, k3]) (by rw [g7, k4]) (fun i j => by rw [g8, k5, hpos])
    obtain ⟨q, f1, -, f2⟩ := factorize_solve g4 g9 (by rw [hst]; exact o) sh (q := s.numeric ℝ) (s := s)
      ⟨rfl, rfl, by simp [SymbolicQr.numeric], by simp [SymbolicQr.numeric], by simp [SymbolicQr.numeric, sh.hCols],
        by simp [SymbolicQr.numeric, sh.hRows]⟩
    obtain ⟨flag, b', f3, f4, f5, f6⟩ := f2 (b ++ List.replicate n 0) (by rw [g6]; simp [hb])
    rw [g6, g7] at f5 f6
    have hrow : ∀ (i : Nat) (z : Nat → ℝ), i < n → ∑ c ∈ Finset.range n, dampedEntry ts m n μ (m + i) c * z c = μ * z i := by
      intro i z hi
      rw [Finset.sum_eq_single i]
      · rw [dampedEntry, if_neg (by omega), if_pos ⟨rfl, hi⟩]
      · intro c _ hc
        rw [dampedEntry, if_neg (by omega), if_neg (by omega), zero_mul]
      · intro hc
        exact absurd (Finset.mem_range.2 hi) hc
    have hflag : flag = true := by
      rw [f5]
      intro z hz c hc
      have := hz (m + c) (by omega)
      rw [hrow c z hc] at this
      exact (mul_eq_zero.1 this).resolve_left hμ.ne'
    subst hflag
    have hlen : b'.length = m + n := by rw [f4]; simp [hb]
    refine ⟨b', ?_, by rw [List.length_take]; omega, ?_⟩
    · show (do
        let a ← SparseColMat.fromTripletMat sort (tripletsOf m n ts)
        let a ← (List.range n).foldlM (setDamping μ) a
        let q ← (s.numeric ℝ).factorize a
        let (solved, b) ← q.solve (b ++ List.replicate n 0)
        pure (if solved then some b else none)) = _
      rw [g1, ok_bind, g2, ok_bind, f1, ok_bind, f3, ok_bind]
      rfl
    · intro c hc
      have hnorm := f6 rfl c hc
      have htake : ∀ c, c < n → (b'.take n).getD c 0 = b'.getD c 0 := by
        intro c hc
        rw [List.getD_eq_getElem?_getD, List.getElem?_take_of_lt hc, ← List.getD_eq_getElem?_getD]
      rw [Finset.sum_range_add] at hnorm
      rw [htake c hc]
      have hlow : ∑ i ∈ Finset.range n, dampedEntry ts m n μ (m + i) c *
          ((∑ c' ∈ Finset.range n, dampedEntry ts m n μ (m + i) c' * b'.getD c' 0) - (b ++ List.replicate n 0).getD (m + i) 0) =
          μ ^ 2 * b'.getD c 0 := by
        rw [Finset.sum_eq_single c]
        · rw [hrow c (fun c' => b'.getD c' 0) hc, dampedEntry, if_neg (by omega), if_pos ⟨rfl, hc⟩,
            List.getD_eq_getElem?_getD (l := b ++ _), List.getElem?_append_right (by omega), List.getElem?_replicate, if_pos (by omega)]
          simp only [Option.getD_some]
          ring
        · intro i _ hi
          rw [dampedEntry, if_neg (by omega), if_neg (by omega), zero_mul]
        · intro h
          exact absurd (Finset.mem_range.2 hc) h
      rw [hlow] at hnorm
      refine Eq.trans ?_ hnorm
      congr 1
      refine Finset.sum_congr rfl (fun i hi => ?_)
      have hi := Finset.mem_range.1 hi
      have hU : ∀ c, dampedEntry ts m n μ i c = entrySum ts i c := fun c => by rw [dampedEntry, if_pos hi]
      rw [hU, List.getD_eq_getElem?_getD (l := b ++ _), List.getElem?_append_left (by omega), ← List.getD_eq_getElem?_getD]
      congr 2
      refine Finset.sum_congr rfl (fun c' hc' => ?_)
      rw [hU, htake c' (Finset.mem_range.1 hc')]

end Fiksi
