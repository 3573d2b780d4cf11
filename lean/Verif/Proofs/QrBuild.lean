import Verif.Proofs.QrSolve
import Verif.Props.Cholesky
/-!
# Building the symbolic factorisation, and the whole solver
-/
namespace Fiksi

open Spec

/-- The ordering routine returns a permutation of the columns of `a`. -/
def Spec.OrdersColumns (order : SparseStructure → R (List Nat)) (a : SparseStructure) : Prop :=
  ∃ p, order a = .ok p ∧ p.Perm (List.range a.ncols)

theorem perm_nodup_getElem {p : List Nat} {n : Nat} (hp : p.Perm (List.range n)) {i i' c : Nat} (h : p[i]? = some c) (h' : p[i']? = some c) :
    i = i' := by
  have hnd : p.Nodup := hp.nodup_iff.2 List.nodup_range
  exact (List.getElem?_inj (List.getElem?_eq_some_iff.1 h).1 hnd).1 (by rw [h, h'])

theorem inversePermutation_spec {p : List Nat} {n : Nat} (hp : p.Perm (List.range n)) :
    ∃ inv, inversePermutation n p = .ok inv ∧ inv.Perm (List.range inv.length) ∧ inv.length = n ∧ ∀ j c : Nat, p[j]? = some c → inv[c]? = some j := by
  have hlen : p.length = n := by rw [hp.length_eq, List.length_range]
  obtain ⟨inv, h1, h2, h3⟩ := foldlM_prefix (fun (pre : List (Nat × Nat)) (inv : List Nat) => inv.length = n ∧
      ∀ j c : Nat, j < pre.length → p[j]? = some c → inv[c]? = some j)
    (fun (inv : List Nat) p => setIdx inv p.1 p.2) p.zipIdx (List.replicate n 0) ⟨by simp, by simp⟩ (by
    rintro pre ⟨c, j⟩ post inv hl ⟨e1, e2⟩
    obtain ⟨hj, -, hjc⟩ := zipIdx_split hl
    have hc : c < n := List.mem_range.1 (hp.mem_iff.1 (List.mem_of_getElem? hjc))
    simp only
    rw [setIdx_of _ (by omega)]
    refine ⟨_, rfl, by simpa using e1, ?_⟩
    intro j' c' hj' hjc'
    rw [List.length_append, List.length_singleton] at hj'
    by_cases h : j' = j
    · subst h
      rw [hjc] at hjc'
      obtain rfl := Option.some.inj hjc'
      rw [List.getElem?_set_self (by omega)]
    · rw [List.getElem?_set_ne, e2 j' c' (by omega) hjc']
      rintro rfl
      exact h (perm_nodup_getElem hp hjc' hjc))
  have h3' : ∀ j c : Nat, p[j]? = some c → inv[c]? = some j := fun j c hjc =>
    h3 j c (by rw [List.length_zipIdx]; exact (List.getElem?_eq_some_iff.1 hjc).1) hjc
  refine ⟨inv, h1, ?_, h2, h3'⟩
  rw [h2]
  have hsub : List.range n ⊆ inv := by
    intro j hj
    rw [List.mem_range] at hj
    have hjc : p[j]? = some (p[j]'(by omega)) := List.getElem?_eq_getElem _
    exact List.mem_of_getElem? (h3' j _ hjc)
  exact ((List.nodup_range.subperm hsub).perm_of_length_le (by rw [List.length_range, h2])).symm

/-- The column permutation, its inverse and the permuted structure. -/
structure Ordered (a : SparseStructure) (p : List Nat) (seq : PermutationSequence) (pa : SparseStructure) : Prop where
  perm : p.Perm (List.range a.ncols)
  wf : WellFormed pa
  rows : pa.nrows = a.nrows
  cols : pa.ncols = a.ncols
  has : ∀ i k : Nat, Has pa i k ↔ ∃ c, p[k]? = some c ∧ Has a i c
  inverse : ∀ {T : Type} (l : List T), a.ncols ≤ l.length → ∃ l', seq.permuteSlice l = .ok l' ∧ l'.length = l.length ∧ ∀ j c : Nat, p[j]? = some c → l'[c]? = l[j]?

theorem orderColumns_spec {order : SparseStructure → R (List Nat)} {a : SparseStructure} (horder : OrdersColumns order a) (ha : WellFormed a)
    (ordering : QrOrdering) : ∃ p seq pa, orderColumns order a ordering = .ok (p, seq, pa) ∧ Ordered a p seq pa := by
  cases ordering with
  | natural =>
    obtain ⟨seq, h1, -, h2⟩ := C35_gather (List.range a.ncols) (by rw [List.length_range])
    refine ⟨List.range a.ncols, seq, a, ?_, .refl _, ha, rfl, rfl, ?_, ?_⟩
    · rw [orderColumns, h1]
      rfl
    · intro i k
      constructor
      · intro h
        have hk := (h.lt ha).2
        exact ⟨k, by rw [List.getElem?_range hk], h⟩
      · rintro ⟨c, hc, h⟩
        have hk := (List.getElem?_eq_some_iff.1 hc).1
        rw [List.length_range] at hk
        rw [List.getElem?_range hk] at hc
        obtain rfl := Option.some.inj hc
        exact h
    · intro T l hl
      obtain ⟨l', e1, e2, e3, -⟩ := h2 l (by rw [List.length_range]; exact hl)
      refine ⟨l', e1, e2, ?_⟩
      intro j c hjc
      have hj := (List.getElem?_eq_some_iff.1 hjc).1
      rw [List.length_range] at hj
      have hjj := hjc
      rw [List.getElem?_range hj] at hjj
      obtain rfl := Option.some.inj hjj
      exact e3 _ _ hjc
  | colamd =>
    obtain ⟨p, h0, hp⟩ := horder
    have hmem : ∀ c ∈ p, c < a.ncols := fun c hc => List.mem_range.1 (hp.mem_iff.1 hc)
    obtain ⟨pa, h1, h2, h3, h4, h5⟩ := C34_permute_structure ha hmem
    obtain ⟨inv, h6, h7, h8, h9⟩ := inversePermutation_spec hp
    obtain ⟨seq, k1, -, k2⟩ := C35_gather inv h7
    refine ⟨p, seq, pa, ?_, hp, h2, h3, by rw [h4, hp.length_eq, List.length_range], h5, ?_⟩
    · rw [orderColumns, h0, ok_bind, h1, ok_bind, h6, ok_bind, k1, ok_bind]
      rfl
    · intro T l hl
      obtain ⟨l', e1, e2, e3, -⟩ := k2 l (by rw [h8]; exact hl)
      exact ⟨l', e1, e2, fun j c hjc => e3 c j (h9 j c hjc)⟩

theorem Ordered.fullRank {a : SparseStructure} {p : List Nat} {seq : PermutationSequence} {pa : SparseStructure} (o : Ordered a p seq pa)
    (h : FullRank a) : FullRank pa := by
  obtain ⟨g, h1, h2⟩ := h
  have hlen : p.length = a.ncols := by rw [o.perm.length_eq, List.length_range]
  have hget : ∀ k, k < a.ncols → p[k]? = some (p.getD k 0) ∧ p.getD k 0 < a.ncols := by
    intro k hk
    have : p[k]? = some (p.getD k 0) := by rw [List.getD_eq_getElem?_getD, List.getElem?_eq_getElem (by omega)]; rfl
    exact ⟨this, List.mem_range.1 (o.perm.mem_iff.1 (List.mem_of_getElem? this))⟩
  refine ⟨fun k => g (p.getD k 0), ?_, ?_⟩
  · intro k hk
    rw [o.cols] at hk
    obtain ⟨e1, e2⟩ := hget k hk
    exact (o.has _ _).2 ⟨_, e1, h1 _ e2⟩
  · intro k k' hk hk' heq
    rw [o.cols] at hk hk'
    obtain ⟨e1, e2⟩ := hget k hk
    obtain ⟨e3, e4⟩ := hget k' hk'
    have := h2 _ _ e2 e4 heq
    rw [← this] at e3
    exact perm_nodup_getElem o.perm e1 e3

/-- The symbolic factorisation of a structure of full structural column rank. -/
theorem build_spec {order : SparseStructure → R (List Nat)} {a : SparseStructure} (horder : OrdersColumns order a) (ha : WellFormed a)
    (hr : FullRank a) (ordering : QrOrdering) :
    ∃ s pa S, SymbolicQr.build order a ordering = .ok s ∧ Ordered a s.colPermutation s.invColPermutationSequence pa ∧
      QrShape pa s.rowPermutation s.rStructure s.hStructure S := by
  obtain ⟨p, seq, pa, h1, o⟩ := orderColumns_spec horder ha ordering
  obtain ⟨parents, post, h2, h3, st⟩ := exists_setting pa o.wf
  obtain ⟨counts, h4, cs, h5, sh⟩ := st.qrShape (o.fullRank hr)
  refine ⟨⟨cs.rowPermutation, cs.lStructure, cs.hStructure, p, seq⟩, pa, _, ?_, o, sh⟩
  rw [SymbolicQr.build, h1, ok_bind]
  simp only
  rw [h2, ok_bind, h3, ok_bind, h4, ok_bind, h5, ok_bind]
  rfl

/-- A numeric factorisation whose buffers have the sizes that the symbolic one gives them. -/
structure Qr.Fits {T : Type} (q : Qr T) (s : SymbolicQr) (pa : SparseStructure) : Prop where
  sym : q.sym = s
  rStruct : q.r.structure' = s.rStructure
  rLen : q.r.values.length = s.rStructure.rowIndices.length
  hLen : q.hValues.length = s.hStructure.rowIndices.length
  bLen : q.hBetas.length = pa.ncols
  xLen : q.x.length = pa.nrows

/-- The result of factorizing and solving. -/
theorem factorize_solve {a : SparseColMat ℝ} (ha : MatWellFormed a) {U : Nat → Nat → ℝ} (hU : Represents a U) {s : SymbolicQr} {pa : SparseStructure}
    {S : Nat → Nat → Nat → Prop} (o : Ordered a.structure' s.colPermutation s.invColPermutationSequence pa)
    (sh : QrShape pa s.rowPermutation s.rStructure s.hStructure S) {q : Qr ℝ} (hq : q.Fits s pa) :
    ∃ q', q.factorize a = .ok q' ∧ q'.Fits s pa ∧ ∀ b : List ℝ, b.length = a.structure'.nrows →
      ∃ flag b', q'.solve b = .ok (flag, b') ∧ b'.length = b.length ∧
        (flag = true ↔ ∀ z : Nat → ℝ, (∀ i, i < a.structure'.nrows → ∑ c ∈ Finset.range a.structure'.ncols, U i c * z c = 0) →
          ∀ c, c < a.structure'.ncols → z c = 0) ∧
        (flag = true → ∀ c, c < a.structure'.ncols → ∑ i ∈ Finset.range a.structure'.nrows,
          U i c * ((∑ c' ∈ Finset.range a.structure'.ncols, U i c' * b'.getD c' 0) - b.getD i 0) = 0) := by
  set p := s.colPermutation with hp
  have hplen : p.length = a.structure'.ncols := by rw [o.perm.length_eq, List.length_range]
  have hget : ∀ k, k < a.structure'.ncols → p[k]? = some (p.getD k 0) ∧ p.getD k 0 < a.structure'.ncols := by
    intro k hk
    have : p[k]? = some (p.getD k 0) := by rw [List.getD_eq_getElem?_getD, List.getElem?_eq_getElem (by omega)]; rfl
    exact ⟨this, List.mem_range.1 (o.perm.mem_iff.1 (List.mem_of_getElem? this))⟩
  have hsurj : ∀ c, c < a.structure'.ncols → ∃ k, k < a.structure'.ncols ∧ p[k]? = some c := by
    intro c hc
    obtain ⟨k, hk⟩ := List.mem_iff_getElem?.1 (o.perm.mem_iff.2 (List.mem_range.2 hc))
    exact ⟨k, by rw [← hplen]; exact (List.getElem?_eq_some_iff.1 hk).1, hk⟩
  set B : Nat → Nat → ℝ := fun j => permutedColumn pa.nrows s.rowPermutation U (p.getD j 0) with hB
  obtain ⟨q', h1, inv⟩ := factorize_spec sh ha hU o.rows.symm o.cols.symm (by
    intro j hj
    rw [o.cols] at hj
    obtain ⟨e1, e2⟩ := hget j hj
    refine ⟨_, e1, e2, ?_⟩
    intro i
    rw [o.has]
    constructor
    · rintro ⟨c, hc, h⟩
      rw [e1] at hc
      obtain rfl := Option.some.inj hc
      exact h
    · exact fun h => ⟨_, e1, h⟩) (B := B) (by
    intro j c hjc
    rw [hB]
    simp only
    rw [List.getD_eq_getElem?_getD, hjc]
    rfl) hq.sym hq.rStruct hq.rLen hq.hLen hq.bLen hq.xLen
  refine ⟨q', h1, ⟨inv.sym, inv.rStruct, inv.rLen, inv.hLen, inv.bLen, inv.xLen⟩, ?_⟩
  intro b hb
  have hsum : ∀ (f : Nat → ℝ), ∑ c ∈ Finset.range a.structure'.ncols, f c = ∑ j ∈ Finset.range pa.ncols, f (p.getD j 0) := by
    intro f
    rw [o.cols]
    symm
    refine Finset.sum_nbij (fun j => p.getD j 0) ?_ ?_ ?_ ?_
    · intro j hj
      exact Finset.mem_range.2 (hget j (Finset.mem_range.1 hj)).2
    · intro j hj j' hj' heq
      simp only [Finset.coe_range, Set.mem_Iio] at hj hj'
      simp only at heq
      have h3 := (hget j hj).1
      rw [heq] at h3
      exact perm_nodup_getElem o.perm h3 (hget j' hj').1
    · intro c hc
      simp only [Finset.coe_range, Set.mem_Iio] at hc
      obtain ⟨k, hk, hkc⟩ := hsurj c hc
      refine ⟨k, by simpa using hk, ?_⟩
      simp only
      rw [List.getD_eq_getElem?_getD, hkc]
      rfl
    · intro j _
      rfl
  obtain ⟨y, flag, z, rest, k1, k2, k3, k4, k5, k6⟩ := solveTop_spec sh inv (b := b) (by rw [hb, o.rows])
  obtain ⟨b', g1, g2, g3⟩ := o.inverse (z ++ rest) (by rw [List.length_append]; have := o.cols; omega)
  have hsolve : q'.solve b = .ok (flag, b') := by
    rw [Qr.solve]
    cases e1 : q'.qTrMul b with
    | error e => rw [e1] at k1; simp [bind, Except.bind] at k1
    | ok b1 =>
      rw [e1, ok_bind] at k1
      rw [ok_bind]
      cases e2 : sliceIdx b1 0 q'.r.nrows with
      | error e => rw [e2] at k1; simp [bind, Except.bind] at k1
      | ok top =>
        rw [e2, ok_bind] at k1
        rw [ok_bind]
        cases e3 : q'.r.solveUpperTriangular top with
        | error e => rw [e3] at k1; simp [bind, Except.bind] at k1
        | ok r =>
          obtain ⟨f, z1⟩ := r
          rw [e3, ok_bind] at k1
          rw [ok_bind]
          simp only [pure_eq_ok, Except.ok.injEq, Prod.mk.injEq] at k1
          obtain ⟨rfl, rfl, rfl⟩ := k1
          simp only
          rw [inv.sym, g1, ok_bind]
          rfl
  have hx : ∀ j, j < pa.ncols → b'.getD (p.getD j 0) 0 = z.getD j 0 := by
    intro j hj
    have e := g3 j _ (hget j (by rw [← o.cols]; exact hj)).1
    rw [List.getD_eq_getElem?_getD (l := b'), e, List.getElem?_append_left (by omega), List.getD_eq_getElem?_getD]
  have hBt : ∀ (j i t : Nat), i < pa.nrows → s.rowPermutation[i]? = some (some t) → B j t = U i (p.getD j 0) := by
    intro j i t hi hit
    exact permutedColumn_eq sh.inj hi hit
  refine ⟨flag, b', hsolve, by rw [g2, List.length_append, k3, hb, o.rows], ?_, ?_⟩
  · rw [k5, independent_iff sh inv]
    constructor
    · intro h w hw c hc
      obtain ⟨k, hk, hkc⟩ := hsurj c hc
      have := h (fun j => w (p.getD j 0)) (by
        intro t ht
        obtain ⟨i, hi, hit⟩ := sh.onto t ht
        have h3 := hw i (by rw [← o.rows]; exact hi)
        rw [hsum] at h3
        rw [← h3]
        refine Finset.sum_congr rfl (fun j _ => ?_)
        rw [hBt j i t hi hit, mul_comm]) k (by rw [o.cols]; exact hk)
      rw [List.getD_eq_getElem?_getD, hkc] at this
      exact this
    · intro h w hw j hj
      have hj' : j < a.structure'.ncols := by rw [← o.cols]; exact hj
      -- the vector in the original order
      have := h (fun c => w (p.idxOf c)) (by
        intro i hi
        rw [hsum]
        obtain ⟨t, hit, ht⟩ := sh.real i (by rw [o.rows]; exact hi)
        rw [← hw t ht]
        refine Finset.sum_congr rfl (fun j hj => ?_)
        have hjn : j < a.structure'.ncols := by rw [← o.cols]; exact Finset.mem_range.1 hj
        have hidx : p.idxOf (p.getD j 0) = j := by
          have hm := List.mem_of_getElem? (hget j hjn).1
          have hlt := List.idxOf_lt_length_of_mem hm
          exact perm_nodup_getElem o.perm (by rw [List.getElem?_eq_getElem hlt, List.getElem_idxOf hlt]) (hget j hjn).1
        rw [hBt j i t (by rw [o.rows]; exact hi) hit, hidx, mul_comm]) (p.getD j 0) (hget j hj').2
      have hidx : p.idxOf (p.getD j 0) = j := by
        have hm := List.mem_of_getElem? (hget j hj').1
        have hlt := List.idxOf_lt_length_of_mem hm
        exact perm_nodup_getElem o.perm (by rw [List.getElem?_eq_getElem hlt, List.getElem_idxOf hlt]) (hget j hj').1
      rw [hidx] at this
      exact this
  · intro hf c hc
    obtain ⟨k, hk, hkc⟩ := hsurj c hc
    have hkp : p.getD k 0 = c := by rw [List.getD_eq_getElem?_getD, hkc]; rfl
    have h3 := k6 hf k (by rw [o.cols]; exact hk)
    refine Eq.trans ?_ h3
    rw [← o.rows]
    symm
    apply sum_permuted sh.inj sh.real sh.onto
    intro i t hi hit
    rw [hBt k i t hi hit, hkp, k4 i t hi hit, hsum]
    congr 2
    refine Finset.sum_congr rfl (fun j hj => ?_)
    rw [hBt j i t hi hit, hx j (Finset.mem_range.1 hj), mul_comm]

end Fiksi
