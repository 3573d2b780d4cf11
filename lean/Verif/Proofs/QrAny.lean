import Verif.Proofs.LmQr
import Mathlib.Data.List.TakeWhile
/-!
# The sparse QR does not panic, whatever its numbers are

Nothing is assumed about the arithmetic: the numbers may be infinite or undefined, and their comparisons may have any results.
-/
namespace Fiksi

open Spec

set_option linter.unusedSectionVars false
variable {F : Type} [Add F] [Sub F] [Mul F] [Div F] [Neg F] [Zero F] [One F] [FloatOps F]

theorem idx_any {T : Type} {l : List T} {i : Nat} (h : i < l.length) : ∃ v, idx l i = .ok v := ⟨l[i], idx_of (List.getElem?_eq_getElem h)⟩

/-- The Householder reflection of a vector that has all rows of the column. -/
theorem applyHouseholder_any {x values : List F} {beta : F} {rows : List Nat} (hlen : values.length = rows.length) (hx : ∀ t ∈ rows, t < x.length) :
    ∃ x', applyHouseholder x beta rows values = .ok x' ∧ x'.length = x.length := by
  have hz : ∀ p ∈ rows.zipIdx, p.1 < x.length ∧ p.2 < values.length := by
    rintro ⟨t, i⟩ hp
    have := List.mem_zipIdx hp
    exact ⟨hx _ (by rw [this.2.2]; exact List.getElem_mem _), by simp at this; omega⟩
  rw [applyHouseholder]
  obtain ⟨tau, h1, -⟩ := foldlM_ok (fun _ : F => True) (addTau x values) rows.zipIdx 0 trivial (fun s p hp _ => by
    obtain ⟨v, hv⟩ := idx_any (hz p hp).2
    obtain ⟨y, hy⟩ := idx_any (hz p hp).1
    exact ⟨_, by rw [addTau, hv, ok_bind, hy, ok_bind]; rfl, trivial⟩)
  rw [h1, ok_bind]
  exact foldlM_ok (fun s : List F => s.length = x.length) _ rows.zipIdx x rfl (fun s p hp hs => by
    obtain ⟨v, hv⟩ := idx_any (hz p hp).2
    obtain ⟨y, hy⟩ := idx_any (l := s) (i := p.1) (by rw [hs]; exact (hz p hp).1)
    refine ⟨_, by rw [reflectEntry, hy, ok_bind, hv, ok_bind, setIdx_of _ (by rw [hs]; exact (hz p hp).1)], by simpa using hs⟩)

theorem calculateHouseholder_any {v : List F} (h : v ≠ []) : ∃ norm beta v', calculateHouseholder v = .ok (norm, beta, v') ∧ v'.length = v.length := by
  cases v with
  | nil => exact absurd rfl h
  | cons v0 rest =>
    simp only [calculateHouseholder]
    split <;> exact ⟨_, _, _, rfl, by simp⟩

section
variable {pa : SparseStructure} {s : SymbolicQr} {S : Nat → Nat → Nat → Prop} (sh : QrShape pa s.rowPermutation s.rStructure s.hStructure S)
include sh

theorem QrShape.hRow_lt {j : Nat} (hj : j < pa.ncols) : ∀ t ∈ columnRows s.hStructure j, t < pa.nrows := by
  intro t ht
  have := ((sh.hWf.mem_columnRows (by rw [sh.hCols]; exact hj)).1 ht).lt sh.hWf
  rw [sh.hRows] at this
  exact this.1

theorem rowTarget_any {i : Nat} (hi : i < pa.nrows) : ∃ t, rowTarget s.rowPermutation i = .ok t ∧ t < pa.nrows := by
  obtain ⟨p, h1, h2⟩ := sh.real i hi
  exact ⟨p, by rw [rowTarget, idx_of h1, ok_bind]; rfl, h2⟩

/-- Reading a Householder vector and reflecting by it. -/
theorem reflect_any {hValues x : List F} {beta : F} {k : Nat} (hk : k < pa.ncols) (hhv : hValues.length = s.hStructure.rowIndices.length)
    (hx : x.length = pa.nrows) : ∃ x', applyHouseholder x beta (columnRows s.hStructure k) (colVals s.hStructure hValues k) = .ok x' ∧ x'.length = pa.nrows := by
  have hkh : k < s.hStructure.ncols := by rw [sh.hCols]; exact hk
  obtain ⟨x', h1, h2⟩ := applyHouseholder_any (x := x) (beta := beta) (colVals_length sh.hWf hhv hkh) (by rw [hx]; exact sh.hRow_lt hk)
  exact ⟨x', h1, h2.trans hx⟩

theorem reduceEntry_any {hValues hBetas : List F} (hhv : hValues.length = s.hStructure.rowIndices.length) (hhb : hBetas.length = pa.ncols)
    {j : Nat} (hj : j < pa.ncols) {st : List F × List F} (h1 : st.1.length = pa.nrows) (h2 : st.2.length = s.rStructure.rowIndices.length)
    {p : Nat × Nat} (hp : p ∈ (columnRows s.rStructure j).zipIdx) :
    ∃ st', reduceEntry s hValues hBetas j st p = .ok st' ∧ st'.1.length = pa.nrows ∧ st'.2.length = s.rStructure.rowIndices.length := by
  have hjr : j < s.rStructure.ncols := by rw [sh.rCols]; exact hj
  have hz := List.mem_zipIdx hp
  simp only [Nat.sub_zero, Nat.zero_add] at hz
  obtain ⟨-, hz1, hz2⟩ := hz
  have hk : p.1 ≤ j := sh.rLe j hj p.1 (by rw [hz2]; exact List.getElem_mem _)
  have hkc : p.1 < pa.ncols := by omega
  have hkh : p.1 < s.hStructure.ncols := by rw [sh.hCols]; exact hkc
  have hle := sh.le
  rw [reduceEntry]
  split
  · exact ⟨st, rfl, h1, h2⟩
  · obtain ⟨beta, hb⟩ := idx_any (l := hBetas) (i := p.1) (by omega)
    obtain ⟨x', hx1, hx2⟩ := reflect_any sh (beta := beta) hkc hhv h1
    obtain ⟨y, hy⟩ := idx_any (l := x') (i := p.1) (by omega)
    have hpos := (columnRows_lt sh.rWf hjr hz1).2
    rw [householderColumn_eq sh.hWf hhv hkh, ok_bind, hb, ok_bind, sh.hWf.indexColumn hkh, ok_bind, hx1, ok_bind,
      idx_of (sh.rWf.pointer (by omega)), ok_bind, hy, ok_bind, setIdx_of _ (by omega), ok_bind, setIdx_of _ (by omega), ok_bind]
    exact ⟨_, rfl, by simpa using hx2, by simpa using h2⟩

theorem gatherEntry_any {j : Nat} (hj : j < pa.ncols) {st : List F × List F} (h1 : st.1.length = pa.nrows)
    (h2 : st.2.length = s.hStructure.rowIndices.length) {p : Nat × Nat} (hp : p ∈ (columnRows s.hStructure j).zipIdx) :
    ∃ st', gatherEntry s j st p = .ok st' ∧ st'.1.length = pa.nrows ∧ st'.2.length = s.hStructure.rowIndices.length := by
  have hjh : j < s.hStructure.ncols := by rw [sh.hCols]; exact hj
  have hz := List.mem_zipIdx hp
  simp only [Nat.sub_zero, Nat.zero_add] at hz
  obtain ⟨-, hz1, hz2⟩ := hz
  have ht : p.1 < pa.nrows := sh.hRow_lt hj p.1 (by rw [hz2]; exact List.getElem_mem _)
  obtain ⟨y, hy⟩ := idx_any (l := st.1) (i := p.1) (by omega)
  have hpos := (columnRows_lt sh.hWf hjh hz1).2
  rw [gatherEntry, hy, ok_bind, idx_of (sh.hWf.pointer (by omega)), ok_bind, setIdx_of _ (by omega), ok_bind, setIdx_of _ (by omega), ok_bind]
  exact ⟨_, rfl, by simpa using h1, by simpa using h2⟩

theorem factorizeColumn_any {a : SparseColMat F} (ha : MatWellFormed a) (o : Ordered a.structure' s.colPermutation s.invColPermutationSequence pa)
    {q : Qr F} (hq : q.Fits s pa) {j : Nat} (hj : j < pa.ncols) : ∃ q', factorizeColumn a q j = .ok q' ∧ q'.Fits s pa := by
  have hjr : j < s.rStructure.ncols := by rw [sh.rCols]; exact hj
  have hjh : j < s.hStructure.ncols := by rw [sh.hCols]; exact hj
  have hplen : s.colPermutation.length = a.structure'.ncols := by rw [o.perm.length_eq, List.length_range]
  have hcol : s.colPermutation[j]? = some (s.colPermutation.getD j 0) := by
    rw [List.getD_eq_getElem?_getD, List.getElem?_eq_getElem (by rw [hplen, ← o.cols]; exact hj)]; rfl
  have hcolt : s.colPermutation.getD j 0 < a.structure'.ncols := List.mem_range.1 (o.perm.mem_iff.1 (List.mem_of_getElem? hcol))
  rw [factorizeColumn]
  simp only [hq.sym, idx_of hcol, ok_bind, ha.indexColumn hcolt]
  obtain ⟨x1, k1, k2⟩ := foldlM_ok (fun x : List F => x.length = pa.nrows) (scatterEntry s.rowPermutation)
    ((columnValues a (s.colPermutation.getD j 0)).zip (columnRows a.structure' (s.colPermutation.getD j 0))) (List.replicate q.x.length 0)
    (by rw [List.length_replicate, hq.xLen]) (by
    rintro x ⟨v, r⟩ hv hx
    have hr : r < pa.nrows := by
      rw [o.rows]
      exact (((ha.1.mem_columnRows hcolt).1 (List.of_mem_zip hv).2).lt ha.1).1
    obtain ⟨t, ht1, ht2⟩ := rowTarget_any sh hr
    refine ⟨_, by rw [scatterEntry]; simp only; rw [ht1, ok_bind, setIdx_of _ (by omega)], by simpa using hx⟩)
  rw [k1, ok_bind, sh.rWf.indexColumn hjr, ok_bind]
  obtain ⟨⟨x2, rv⟩, k3, k4, k5⟩ := foldlM_ok (fun st : List F × List F => st.1.length = pa.nrows ∧ st.2.length = s.rStructure.rowIndices.length)
    (reduceEntry s q.hValues q.hBetas j) (columnRows s.rStructure j).zipIdx (x1, q.r.values) ⟨k2, hq.rLen⟩
    (fun st p hp h => reduceEntry_any sh hq.hLen hq.bLen hj h.1 h.2 hp)
  rw [k3, ok_bind]
  simp only
  rw [sh.hWf.indexColumn hjh, ok_bind]
  obtain ⟨⟨x3, hv⟩, k6, k7, k8⟩ := foldlM_ok (fun st : List F × List F => st.1.length = pa.nrows ∧ st.2.length = s.hStructure.rowIndices.length)
    (gatherEntry s j) (columnRows s.hStructure j).zipIdx (x2, q.hValues) ⟨k4, hq.hLen⟩
    (fun st p hp h => gatherEntry_any sh hj h.1 h.2 hp)
  rw [k6, ok_bind]
  simp only at k7 k8 k5 ⊢
  have hm := sh.hWf.pointer_mono (i := j) (j := j + 1) (by omega) hjh
  have hle := sh.hWf.pointer_le (j := j + 1) hjh
  rw [idx_of (sh.hWf.pointer (by omega)), ok_bind, idx_of (sh.hWf.pointer (by omega)), ok_bind, sliceIdx_of hm (by omega), ok_bind]
  have hne : (columnRows s.hStructure j).length ≠ 0 := by
    intro h0
    have := sh.hHead j hj
    rw [List.length_eq_zero_iff.1 h0] at this
    simp at this
  rw [sh.hWf.columnRows_length hjh] at hne
  obtain ⟨norm, beta, v', g1, g2⟩ := calculateHouseholder_any (v := (hv.drop (s.hStructure.columnPointers.getD j 0)).take
      (s.hStructure.columnPointers.getD (j + 1) 0 - s.hStructure.columnPointers.getD j 0)) (by
    intro h0
    have := congrArg List.length h0
    rw [List.length_take, List.length_drop, List.length_nil] at this
    omega)
  rw [g1, ok_bind]
  simp only
  have hner : (columnRows s.rStructure j).length ≠ 0 := by
    intro h0
    have := sh.rLast j hj
    rw [List.length_eq_zero_iff.1 h0] at this
    simp at this
  rw [sh.rWf.columnRows_length hjr] at hner
  have hrle := sh.rWf.pointer_le (j := j + 1) hjr
  have hcs : checkedSub (s.rStructure.columnPointers.getD (j + 1) 0) 1 = .ok (s.rStructure.columnPointers.getD (j + 1) 0 - 1) := by
    rw [checkedSub, if_pos (by omega)]
  rw [setIdx_of _ (by rw [hq.bLen]; exact hj), ok_bind, idx_of (sh.rWf.pointer (by omega)), ok_bind, hcs, ok_bind, setIdx_of _ (by omega), ok_bind]
  refine ⟨_, rfl, rfl, hq.rStruct, by simpa using k5, ?_, by simpa using hq.bLen, k7⟩
  rw [List.length_take, List.length_drop] at g2
  simp only [List.length_append, List.length_take, List.length_drop, g2]
  omega

theorem factorize_any {a : SparseColMat F} (ha : MatWellFormed a) (o : Ordered a.structure' s.colPermutation s.invColPermutationSequence pa)
    {q : Qr F} (hq : q.Fits s pa) : ∃ q', q.factorize a = .ok q' ∧ q'.Fits s pa := by
  rw [Qr.factorize]
  exact foldlM_ok (fun q : Qr F => q.Fits s pa) (factorizeColumn a) (List.range a.structure'.ncols) _
    ⟨hq.sym, hq.rStruct, by simpa using hq.rLen, by simpa using hq.hLen, hq.bLen, hq.xLen⟩
    (fun q j hj h => factorizeColumn_any sh ha o h (by rw [o.cols]; exact List.mem_range.1 hj))

theorem qTrMul_any {q : Qr F} (hq : q.Fits s pa) {b : List F} (hb : b.length = pa.nrows) : ∃ y, q.qTrMul b = .ok y ∧ y.length = pa.nrows := by
  rw [Qr.qTrMul, hq.sym, if_neg (by rw [hb, sh.hRows]; simp)]
  obtain ⟨y, h1, h2⟩ := foldlM_ok (fun y : List F => y.length = pa.nrows) (scatterRhs s.rowPermutation b) (List.range s.hStructure.nrows)
    (List.replicate b.length 0) (by rw [List.length_replicate, hb]) (by
    intro y i hi hy
    rw [List.mem_range, sh.hRows] at hi
    obtain ⟨v, hv⟩ := idx_any (l := b) (i := i) (by omega)
    obtain ⟨t, ht1, ht2⟩ := rowTarget_any sh hi
    exact ⟨_, by rw [scatterRhs, hv, ok_bind, ht1, ok_bind, setIdx_of _ (by omega)], by simpa using hy⟩)
  rw [h1, ok_bind]
  refine foldlM_ok (fun y : List F => y.length = pa.nrows) (applyReflector q) (List.range s.hStructure.ncols) y h2 (fun y j hj hy => ?_)
  rw [List.mem_range] at hj
  have hjc : j < pa.ncols := by rw [← sh.hCols]; exact hj
  obtain ⟨beta, hbt⟩ := idx_any (l := q.hBetas) (i := j) (by rw [hq.bLen]; exact hjc)
  have hm := sh.hWf.pointer_mono (i := j) (j := j + 1) (by omega) hj
  have hle := sh.hWf.pointer_le (j := j + 1) hj
  obtain ⟨y', g1, g2⟩ := reflect_any sh (beta := beta) hjc hq.hLen hy
  refine ⟨y', ?_, g2⟩
  rw [applyReflector, hq.sym, sh.hWf.indexColumnRange hj, ok_bind, sh.hWf.indexColumn hj, ok_bind, hbt, ok_bind]
  simp only
  rw [sliceIdx_of hm (by rw [hq.hLen]; exact hle), ok_bind]
  exact g1

end

theorem solveUpperLoop_any {a : SparseColMat F} (h : MatWellFormed a) {n : Nat} (hn : n ≤ a.structure'.ncols) : ∀ (k : Nat), k ≤ n → ∀ b : List F,
    b.length = n → ∃ flag b', solveUpperLoop a k b = .ok (flag, b') ∧ b'.length = n := by
  intro k
  induction k with
  | zero => intro _ b hb; exact ⟨true, b, rfl, hb⟩
  | succ k ih =>
    intro hk b hb
    have hkc : k < a.structure'.ncols := by omega
    obtain ⟨d, hd⟩ : ∃ d, lastDiagonal (columnValues a k) (columnRows a.structure' k) k = .ok d := by
      rw [lastDiagonal]
      split
      · rename_i hl
        have hlen := h.columnValues_length (j := k)
        have hne : columnValues a k ≠ [] := by
          intro h0
          rw [h0] at hlen
          rw [List.length_eq_zero_iff.1 hlen.symm] at hl
          simp at hl
        rw [List.getLast?_eq_getLast_of_ne_nil hne]
        exact ⟨_, rfl⟩
      · exact ⟨_, rfl⟩
    rw [solveUpperLoop, h.indexColumn hkc, ok_bind]
    simp only
    rw [hd, ok_bind]
    split
    · exact ⟨false, b, rfl, hb⟩
    · obtain ⟨v, hv⟩ := idx_any (l := b) (i := k) (by omega)
      rw [hv, ok_bind, setIdx_of _ (by omega), ok_bind]
      obtain ⟨b', h1, h2⟩ := foldlM_ok (fun b : List F => b.length = n) (subtractEntry (v / d))
        (((columnValues a k).zip (columnRows a.structure' k)).takeWhile (fun vr => vr.2 < k)) (b.set k (v / d)) (by simpa using hb) (by
        rintro c ⟨w, r⟩ hw hc
        have hr : r < k := by
          have := List.mem_takeWhile_imp hw
          simpa using this
        obtain ⟨y, hy⟩ := idx_any (l := c) (i := r) (by omega)
        exact ⟨_, by rw [subtractEntry]; simp only; rw [hy, ok_bind, setIdx_of _ (by omega)], by simpa using hc⟩)
      rw [h1, ok_bind]
      exact ih (by omega) b' h2

theorem Qr.Fits.solve_any {pa : SparseStructure} {s : SymbolicQr} {S : Nat → Nat → Nat → Prop}
    (sh : QrShape pa s.rowPermutation s.rStructure s.hStructure S) {a : SparseStructure} (o : Ordered a s.colPermutation s.invColPermutationSequence pa)
    {q : Qr F} (hq : q.Fits s pa) {b : List F} (hb : b.length = a.nrows) : ∃ flag b', q.solve b = .ok (flag, b') ∧ b'.length = b.length := by
  obtain ⟨y, h1, h2⟩ := qTrMul_any sh hq (b := b) (by rw [hb, o.rows])
  have hrn : q.r.nrows = pa.ncols := by rw [SparseColMat.nrows, hq.rStruct, sh.rRows]
  have hle := sh.le
  rw [Qr.solve, h1, ok_bind, hrn, sliceIdx_of (by omega) (by omega), ok_bind, SparseColMat.solveUpperTriangular]
  simp only [List.drop_zero, Nat.sub_zero]
  rw [if_neg (by rw [hrn, List.length_take]; omega), hq.rStruct, sh.rRows]
  obtain ⟨flag, z, k1, k2⟩ := solveUpperLoop_any (a := q.r) ⟨by rw [hq.rStruct]; exact sh.rWf, by rw [hq.rStruct]; exact hq.rLen⟩
    (n := pa.ncols) (by rw [hq.rStruct, sh.rCols]) pa.ncols le_rfl (y.take pa.ncols) (by rw [List.length_take]; omega)
  rw [k1, ok_bind]
  simp only
  have hlen : (z ++ y.drop pa.ncols).length = b.length := by
    rw [List.length_append, List.length_drop, k2, h2, hb, ← o.rows]; omega
  obtain ⟨l', g1, g2, -⟩ := o.inverse (z ++ y.drop pa.ncols) (by rw [hlen, hb, ← o.cols, ← o.rows]; exact hle)
  rw [hq.sym, g1, ok_bind]
  exact ⟨flag, l', rfl, g2.trans hlen⟩

/-- The compressed matrix: where it has entries. -/
theorem compressed_any {sort : SortByKey} (hsort : Sorts sort) {m n : Nat} {ts : List (Nat × Nat × F)} (h : Spec.Augmented m n ts) :
    ∃ a, SparseColMat.fromTripletMat sort (tripletsOf m n ts) = .ok a ∧ MatWellFormed a ∧ a.structure'.nrows = m + n ∧ a.structure'.ncols = n ∧
      ∀ i j, Has a.structure' i j ↔ (i, j) ∈ Spec.positions ts := by
  obtain ⟨g1, g2, g3, g4⟩ := tripletsOf_spec h
  obtain ⟨a, h1, h2, h3, h4, h5, -⟩ := C31_from_triplets hsort g1
  exact ⟨a, h1, h2, h3.trans g3, h4.trans g4, fun i j => by rw [h5, tripletValues_iff h]⟩

/-- What Levenberg–Marquardt needs of the linear solver not to panic, in any arithmetic: on matrices with the positions it was built for it does not
panic, and a solution has an entry for each variable. -/
def LeastSquares.Sturdy (S : Nat → Nat → Nat → Prop) (ls : LeastSquares F) : Prop :=
  ∀ m n ts₀, Spec.Augmented m n ts₀ → S m n ts₀.length → ∃ sym, ls.build m n ts₀ = .ok sym ∧
    ∀ ts μ b, Spec.Augmented m n ts → Spec.positions ts = Spec.positions ts₀ → b.length = m →
      ∃ o, ls.solve sym m n ts μ (b ++ List.replicate n 0) = .ok o ∧ ∀ b', o = some b' → n ≤ b'.length

/-- The linear solver of the crate does not panic. -/
theorem qrLeastSquares_sturdy {sort : SortByKey} (hsort : Sorts sort) {order : SparseStructure → R (List Nat)} {S : Nat → Nat → Nat → Prop}
    (horder : ∀ a m n k, WellFormed a → a.nrows = m + n → a.ncols = n → a.rowIndices.length ≤ k → S m n k → OrdersColumns order a) :
    (qrLeastSquares sort order : LeastSquares F).Sturdy S := by
  intro m n ts₀ h0 hS
  obtain ⟨a₀, k1, k2, k3, k4, k5⟩ := compressed_any hsort h0
  have hfull : FullRank a₀.structure' := by
    refine ⟨fun c => m + c, fun c hc => (k5 _ _).2 (h0.damping (by omega)), fun c c' _ _ he => by simpa using he⟩
  obtain ⟨s, pa, S, b1, o, sh⟩ := build_spec (horder _ m n _ k2.1 k3 k4 (entries_le k2.1 k5) hS) k2.1 hfull .colamd
  refine ⟨s, ?_, ?_⟩
  · show (do let a ← SparseColMat.fromTripletMat sort (tripletsOf m n ts₀); SymbolicQr.build order a.structure' .colamd) = _
    rw [k1, ok_bind, b1]
    rfl
  · intro ts μ b h hpos hb
    obtain ⟨a, g1, g2, g3, g4, g5⟩ := compressed_any hsort h
    obtain ⟨a', e1, e2, e3, -⟩ := setDamping_spec g2 μ (fun j hj => (damping_position h g2.1 g4 g5 (by omega)).1)
    rw [g4] at e1
    have hwf : MatWellFormed a' := ⟨by rw [e2]; exact g2.1, by rw [e2, e3, g2.2]⟩
    have hst : a'.structure' = a₀.structure' := by
      rw [e2]
      exact wellFormed_ext g2.1 k2.1 (by rw [g3, k3]) (by rw [g4, k4]) (fun i j => by rw [g5, k5, hpos])
    obtain ⟨q, f1, f2⟩ := factorize_any sh hwf (by rw [hst]; exact o) (q := s.numeric F)
      ⟨rfl, rfl, by simp [SymbolicQr.numeric], by simp [SymbolicQr.numeric], by simp [SymbolicQr.numeric, sh.hCols],
        by simp [SymbolicQr.numeric, sh.hRows]⟩
    obtain ⟨flag, b', f3, f4⟩ := f2.solve_any sh o (b := b ++ List.replicate n 0) (by rw [k3]; simp [hb])
    refine ⟨if flag then some b' else none, ?_, ?_⟩
    · show (do
        let a ← SparseColMat.fromTripletMat sort (tripletsOf m n ts)
        let a ← (List.range n).foldlM (setDamping μ) a
        let q ← (s.numeric F).factorize a
        let (solved, b) ← q.solve (b ++ List.replicate n 0)
        pure (if solved then some b else none)) = _
      rw [g1, ok_bind, e1, ok_bind, f1, ok_bind, f3, ok_bind]
      rfl
    · intro b'' hb''
      split at hb''
      · cases hb''
        rw [f4]
        simp
      · cases hb''

end Fiksi
