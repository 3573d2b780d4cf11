import Verif.Proofs.QrFactorize
import Verif.Proofs.Gauss
/-!
# A column of the numeric factorisation
-/
namespace Fiksi

open Spec

/-- Column `col` of the matrix with entries `U`, with its rows permuted. -/
def permutedColumn {T : Type} [Zero T] (m : Nat) (rp : List (Option Nat)) (U : Nat → Nat → T) (col t : Nat) : T :=
  if rp.idxOf (some t) < m then U (rp.idxOf (some t)) col else 0

section
variable {m : Nat} {rp : List (Option Nat)} (inj : ∀ i i' p : Nat, rp[i]? = some (some p) → rp[i']? = some (some p) → i = i')
include inj

theorem idxOf_target {i t : Nat} (h : rp[i]? = some (some t)) : rp.idxOf (some t) = i := by
  have hmem : some t ∈ rp := List.mem_of_getElem? h
  have hlt := List.idxOf_lt_length_of_mem hmem
  have h1 : rp[rp.idxOf (some t)]? = some (some t) := by
    rw [List.getElem?_eq_getElem hlt, List.getElem_idxOf hlt]
  exact inj _ _ _ h1 h

theorem permutedColumn_eq {T : Type} [Zero T] {U : Nat → Nat → T} {col i t : Nat} (hi : i < m) (h : rp[i]? = some (some t)) : permutedColumn m rp U col t = U i col := by
  rw [permutedColumn, idxOf_target inj h, if_pos hi]

/-- A column of the matrix is written into `x`. -/
theorem scatter_spec {T : Type} [Zero T] (real : ∀ i, i < m → ∃ p : Nat, rp[i]? = some (some p) ∧ p < m) {a : SparseColMat T} (ha : MatWellFormed a)
    (hm : a.structure'.nrows = m) {U : Nat → Nat → T} (hU : Represents a U) {col : Nat} (hcol : col < a.structure'.ncols) :
    ∃ x, ((columnValues a col).zip (columnRows a.structure' col)).foldlM (scatterEntry rp) (List.replicate m (0 : T)) = .ok x ∧ x.length = m ∧
      ∀ t, x.getD t 0 = permutedColumn m rp U col t := by
  have hlen : (columnValues a col).length = (columnRows a.structure' col).length := ha.columnValues_length
  have hsnd : ((columnValues a col).zip (columnRows a.structure' col)).map Prod.snd = columnRows a.structure' col :=
    List.map_snd_zip (by omega)
  have hnd : (columnRows a.structure' col).Nodup := columnRows_nodup ha.1 hcol
  obtain ⟨x, h1, h2, h3, h4⟩ := foldlM_prefix (fun (pre : List (T × Nat)) (x : List T) => x.length = m ∧
      (∀ p ∈ pre, ∀ t : Nat, rp[p.2]? = some (some t) → x.getD t 0 = p.1) ∧
      ∀ t : Nat, (∀ p ∈ pre, rp[p.2]? ≠ some (some t)) → x.getD t 0 = 0)
    (scatterEntry rp) ((columnValues a col).zip (columnRows a.structure' col)) (List.replicate m (0 : T))
    ⟨by simp, by simp, by
      intro t _
      rw [List.getD_eq_getElem?_getD, List.getElem?_replicate]
      split <;> rfl⟩ (by
    rintro pre ⟨v, i⟩ post x hl ⟨e1, e2, e3⟩
    have hi : i ∈ columnRows a.structure' col := by
      rw [← hsnd, hl]
      simp
    have him : i < m := by rw [← hm]; exact ha.1.columnRows_bound hi
    obtain ⟨t, ht, htm⟩ := real i him
    have htarget : rowTarget rp i = .ok t := by
      rw [rowTarget, idx_of ht]
      rfl
    have hne : ∀ p ∈ pre, p.2 ≠ i := by
      intro p hp heq
      rw [← hsnd, hl, List.map_append, List.map_cons] at hnd
      exact (List.nodup_append.1 hnd).2.2 p.2 (List.mem_map_of_mem hp) i (by simp) heq
    rw [scatterEntry, htarget, ok_bind, setIdx_of _ (by omega)]
    refine ⟨_, rfl, by simpa using e1, ?_, ?_⟩
    · intro p hp t' ht'
      rw [getD_set _ _ (by omega)]
      rcases List.mem_append.1 hp with hp | hp
      · rw [if_neg, e2 p hp t' ht']
        rintro rfl
        exact hne p hp (inj _ _ _ ht' ht)
      · rw [List.mem_singleton] at hp
        subst hp
        simp only at ht' ⊢
        rw [ht] at ht'
        simp only [Option.some.injEq] at ht'
        rw [if_pos ht'.symm]
    · intro t' ht'
      rw [getD_set _ _ (by omega), if_neg, e3 t' (fun p hp => ht' p (List.mem_append_left _ hp))]
      rintro rfl
      exact ht' (v, i) (by simp) ht)
  refine ⟨x, h1, h2, ?_⟩
  intro t
  by_cases hex : ∃ p ∈ (columnValues a col).zip (columnRows a.structure' col), rp[p.2]? = some (some t)
  · obtain ⟨⟨v, i⟩, hp, ht⟩ := hex
    simp only at ht
    have hst : Stored a i col v := (ha.stored_iff hcol).2 hp
    have hi : i ∈ columnRows a.structure' col := by
      rw [← hsnd]
      exact List.mem_map_of_mem (f := Prod.snd) hp
    rw [h3 _ hp t ht, permutedColumn_eq inj (by rw [← hm]; exact ha.1.columnRows_bound hi) ht, hU.stored _ _ _ hst]
  · simp only [not_exists, not_and] at hex
    rw [h4 t hex, permutedColumn]
    split
    · rename_i hlt
      symm
      apply hU.zero
      intro hhas
      have hmem := (ha.1.mem_columnRows hcol).2 hhas
      rw [← hsnd] at hmem
      obtain ⟨p, hp, hpi⟩ := List.mem_map.1 hmem
      have hlt' : rp.idxOf (some t) < rp.length := by
        obtain ⟨q, hq, -⟩ := real _ hlt
        exact (List.getElem?_eq_some_iff.1 hq).1
      apply hex p hp
      rw [hpi, List.getElem?_eq_getElem hlt', List.getElem_idxOf hlt']
    · rfl

end

/-- What holds after `k` columns. -/
structure FactorizeInv (a : SparseStructure) (s : SymbolicQr) (B : Nat → Nat → ℝ) (k : Nat) (q : Qr ℝ) : Prop where
  sym : q.sym = s
  rStruct : q.r.structure' = s.rStructure
  rLen : q.r.values.length = s.rStructure.rowIndices.length
  hLen : q.hValues.length = s.hStructure.rowIndices.length
  bLen : q.hBetas.length = a.ncols
  xLen : q.x.length = a.nrows
  orth : ∀ i, i < k → Orthogonal a.nrows (hBeta q.hBetas i) (hVec s.hStructure q.hValues i)
  col : ∀ i, i < k → reflectAll a.nrows (hBeta q.hBetas) (hVec s.hStructure q.hValues) (i + 1) (B i) =
    sparseAt (columnRows s.rStructure i) (colVals s.rStructure q.r.values i)

theorem factorizeColumn_spec {pa : SparseStructure} {s : SymbolicQr} {S : Nat → Nat → Nat → Prop}
    (sh : QrShape pa s.rowPermutation s.rStructure s.hStructure S) {a : SparseColMat ℝ} (ha : MatWellFormed a) {U : Nat → Nat → ℝ}
    (hU : Represents a U) (hrows : a.structure'.nrows = pa.nrows)
    (hperm : ∀ j, j < pa.ncols → ∃ c, s.colPermutation[j]? = some c ∧ c < a.structure'.ncols ∧ ∀ i, Has pa i j ↔ Has a.structure' i c)
    {j : Nat} (hj : j < pa.ncols) {B : Nat → Nat → ℝ}
    (hB : ∀ j c : Nat, s.colPermutation[j]? = some c → B j = permutedColumn pa.nrows s.rowPermutation U c) {q : Qr ℝ}
    (inv : FactorizeInv pa s B j q) : ∃ q', factorizeColumn a q j = .ok q' ∧ FactorizeInv pa s B (j + 1) q' := by
  obtain ⟨c, hc, hcn, hhas⟩ := hperm j hj
  obtain ⟨x₀, h1, h2, h3⟩ := scatter_spec sh.inj sh.real ha hrows hU hcn
  have hjr : j < s.rStructure.ncols := by rw [sh.rCols]; exact hj
  have hjh : j < s.hStructure.ncols := by rw [sh.hCols]; exact hj
  have hx₀ : (fun t => x₀.getD t 0) = B j := by
    funext t
    rw [h3, hB j c hc]
  have hsupp : ∀ t, x₀.getD t 0 ≠ 0 → S 0 j t := by
    intro t ht
    rw [h3, permutedColumn] at ht
    split at ht
    · rename_i hlt
      obtain ⟨p, hp, -⟩ := sh.real _ hlt
      have hlt' := (List.getElem?_eq_some_iff.1 hp).1
      have hget : s.rowPermutation[s.rowPermutation.idxOf (some t)]? = some (some t) := by
        rw [List.getElem?_eq_getElem hlt', List.getElem_idxOf hlt']
      apply sh.init _ j t _ hget
      rw [hhas]
      by_contra hn
      exact ht (hU.zero _ _ hn)
    · exact absurd rfl ht
  obtain ⟨x₁, rv₁, h4, h5, h6, h7, h8, h9⟩ := reduce_spec sh hj (hValues := q.hValues) (hBetas := q.hBetas) (x₀ := x₀) (rv := q.r.values)
    inv.hLen inv.bLen h2 inv.rLen hsupp (y := fun k => reflectAll pa.nrows (hBeta q.hBetas) (hVec s.hStructure q.hValues) k (fun t => x₀.getD t 0))
    (fun _ => rfl)
  rw [hx₀] at h7 h8
  obtain ⟨x₂, hv₁, g1, g2, g3, g4, g5⟩ := gather_spec sh hj (hv := q.hValues) (x₁ := x₁) inv.hLen h5
  have hv0 : ∀ k t, t ∉ columnRows s.hStructure k → hVec s.hStructure q.hValues k t = 0 := fun k t ht => hVec_zero ht
  have hsupp' : ∀ t, reflectAll pa.nrows (hBeta q.hBetas) (hVec s.hStructure q.hValues) j (B j) t ≠ 0 → S j j t :=
    reflectAll_support sh hv0 hj (by rw [← hx₀]; exact hsupp) le_rfl
  set y := reflectAll pa.nrows (hBeta q.hBetas) (hVec s.hStructure q.hValues) j (B j) with hy
  -- the vector that is reflected
  have hlenH : (colVals s.hStructure hv₁ j).length = (columnRows s.hStructure j).length := colVals_length sh.hWf (by rw [g3, inv.hLen]) hjh
  have hndH : (columnRows s.hStructure j).Nodup := columnRows_nodup sh.hWf hjh
  have hxzero : ∀ t, t ∉ columnRows s.hStructure j → x₁.getD t 0 = 0 := by
    intro t ht
    rw [h7]
    split
    · rfl
    · rename_i hn
      by_contra hne
      have hS := hsupp' t hne
      rcases Nat.lt_or_ge t j with hlt | hge
      · exact hn ⟨hlt, sh.low j t hj hS hlt⟩
      · exact ht (sh.high j t hj hS hge)
  have hu : sparseAt (columnRows s.hStructure j) (colVals s.hStructure hv₁ j) = fun t => x₁.getD t 0 := by
    apply sparseAt_ext hndH hlenH _ hxzero
    intro i r hir
    rw [colVals_getElem? sh.hWf hjh (List.getElem?_eq_some_iff.1 hir).1]
    exact g4 i r hir
  have hbound : ∀ t ∈ columnRows s.hStructure j, t < pa.nrows := fun t ht => by rw [← sh.hRows]; exact sh.hWf.columnRows_bound ht
  obtain ⟨norm, β, v', k1, k2, k3, -, k5⟩ := householder_vector (sh.hHead j hj) hndH hbound hlenH
  rw [hu] at k5
  -- the new values
  have hp1 := sh.hWf.pointer_mono (i := j) (j := j + 1) (by omega) hjh
  have hp2 := sh.hWf.pointer_le (j := j + 1) hjh
  set P := s.hStructure.columnPointers.getD j 0 with hP
  set P' := s.hStructure.columnPointers.getD (j + 1) 0 with hP'
  have hcl := sh.hWf.columnRows_length hjh
  set hv₂ := hv₁.take P ++ v' ++ hv₁.drop P' with hhv₂
  have hhl : hv₁.length = s.hStructure.rowIndices.length := by rw [g3, inv.hLen]
  have htake : (hv₁.take P).length = P := by rw [List.length_take]; omega
  have hvl : v'.length = P' - P := by rw [k2, hlenH, hcl]
  have hlen₂ : hv₂.length = s.hStructure.rowIndices.length := by
    rw [hhv₂, List.length_append, List.length_append, htake, hvl, List.length_drop]
    omega
  have hget₂ : ∀ p, p < P → hv₂[p]? = q.hValues[p]? := by
    intro p hp
    rw [hhv₂, List.append_assoc, List.getElem?_append_left (by omega), List.getElem?_take, if_pos hp]
    exact g5 p (Or.inl hp)
  have hcol₂ : colVals s.hStructure hv₂ j = v' := by
    rw [colVals, hhv₂, ← hP, ← hP', List.append_assoc, List.drop_append_of_le_length (by omega), List.drop_of_length_le (by omega),
      List.nil_append, List.take_append_of_le_length (by omega), List.take_of_length_le (by omega)]
  have hold : ∀ i, i < j → colVals s.hStructure hv₂ i = colVals s.hStructure q.hValues i := by
    intro i hi
    apply colVals_congr
    intro p _ hp
    apply hget₂
    have := sh.hWf.pointer_mono (i := i + 1) (j := j) (by omega) (by omega)
    omega
  set hb₂ := q.hBetas.set j β with hhb₂
  have hbj : hBeta hb₂ j = β := by rw [hBeta, hhb₂, getD_set _ _ (by rw [inv.bLen]; exact hj), if_pos rfl]
  have hbold : ∀ i, i < j → hBeta hb₂ i = hBeta q.hBetas i := by
    intro i hi
    rw [hBeta, hhb₂, getD_set _ _ (by rw [inv.bLen]; exact hj), if_neg (by omega)]
    rfl
  have hvj : hVec s.hStructure hv₂ j = sparseAt (columnRows s.hStructure j) v' := by rw [hVec, hcol₂]
  have hvold : ∀ i, i < j → hVec s.hStructure hv₂ i = hVec s.hStructure q.hValues i := by
    intro i hi
    rw [hVec, hold i hi]
    rfl
  have hRold : ∀ (k : Nat) (x : Nat → ℝ), k ≤ j → reflectAll pa.nrows (hBeta hb₂) (hVec s.hStructure hv₂) k x =
      reflectAll pa.nrows (hBeta q.hBetas) (hVec s.hStructure q.hValues) k x := by
    intro k x hk
    apply reflectAll_congr
    intro i hi
    exact ⟨hbold i (by omega), hvold i (by omega)⟩
  -- the values of R
  have hrp1 := sh.rWf.pointer_mono (i := j) (j := j + 1) (by omega) hjr
  have hrp2 := sh.rWf.pointer_le (j := j + 1) hjr
  have hrcl := sh.rWf.columnRows_length hjr
  obtain ⟨rl, hrl⟩ := List.getLast?_eq_some_iff.1 (sh.rLast j hj)
  have hrlen : (columnRows s.rStructure j).length = rl.length + 1 := by rw [hrl]; simp
  have hrsort := sh.rWf.columnRows_sorted hjr
  have hlastpos : s.rStructure.columnPointers.getD (j + 1) 0 - 1 = s.rStructure.columnPointers.getD j 0 + rl.length := by omega
  have hrv₁ : rv₁.length = s.rStructure.rowIndices.length := by rw [h6, inv.rLen]
  have hset : s.rStructure.columnPointers.getD (j + 1) 0 - 1 < rv₁.length := by omega
  refine ⟨⟨s, ⟨q.r.structure', rv₁.set (s.rStructure.columnPointers.getD (j + 1) 0 - 1) norm⟩, hv₂, hb₂, x₂⟩, ?_, ?_⟩
  · rw [factorizeColumn, inv.sym, idx_of hc, ok_bind, ha.indexColumn hcn, ok_bind, inv.xLen]
    simp only
    rw [h1, ok_bind, sh.rWf.indexColumn hjr, ok_bind, h4, ok_bind]
    simp only
    rw [sh.hWf.indexColumn hjh, ok_bind, g1, ok_bind]
    simp only
    rw [idx_of (sh.hWf.pointer (by omega)), ok_bind, idx_of (sh.hWf.pointer (by omega)), ok_bind,
      sliceIdx_of (sh.hWf.pointer_mono (by omega) hjh) (by rw [hhl]; exact hp2), ok_bind]
    have hk1 : calculateHouseholder ((hv₁.drop (s.hStructure.columnPointers.getD j 0)).take
        (s.hStructure.columnPointers.getD (j + 1) 0 - s.hStructure.columnPointers.getD j 0)) = .ok (norm, β, v') := k1
    rw [hk1, ok_bind]
    simp only
    rw [setIdx_of _ (by rw [inv.bLen]; exact hj), ok_bind, idx_of (sh.rWf.pointer (by omega)), ok_bind, checkedSub, if_pos (by omega), ok_bind,
      setIdx_of _ hset, ok_bind]
    rfl
  · refine ⟨rfl, inv.rStruct, ?_, hlen₂, ?_, g2, ?_, ?_⟩
    · simp only [List.length_set]
      exact hrv₁
    · rw [hhb₂, List.length_set]
      exact inv.bLen
    · intro i hi
      simp only
      rcases Nat.lt_succ_iff_lt_or_eq.1 hi with hi | rfl
      · rw [hbold i hi, hvold i hi]
        exact inv.orth i hi
      · rw [hbj, hvj]
        exact k3
    · intro i hi
      simp only
      rcases Nat.lt_succ_iff_lt_or_eq.1 hi with hi | rfl
      · rw [hRold (i + 1) _ (by omega), inv.col i hi]
        congr 1
        apply colVals_congr
        intro p _ hp
        have h10 := sh.rWf.pointer_mono (i := i + 1) (j := j) (by omega) (by omega)
        rw [List.getElem?_set_ne (by omega), h9 p (Or.inl (by omega))]
      · rw [reflectAll, hRold i _ le_rfl, ← hy, hbj, hvj]
        -- split `y` into the part that is recorded in R and the rest
        set rec : Nat → ℝ := fun t => if t < i ∧ t ∈ columnRows s.rStructure i then y t else 0 with hrec
        have hsplit : y = fun t => x₁.getD t 0 + rec t := by
          funext t
          rw [h7, hrec]
          simp only
          split
          · rw [zero_add]
          · rw [add_zero]
        have hw : reflect pa.nrows β (sparseAt (columnRows s.hStructure i) v') rec = rec := by
          apply reflect_disjoint
          intro t _
          by_cases ht : t ∈ columnRows s.hStructure i
          · right
            rw [hrec]
            simp only
            rw [if_neg]
            have := sh.hGe i hj t ht
            omega
          · exact Or.inl (sparseAt_eq_zero ht)
        have hfinal : reflect pa.nrows β (sparseAt (columnRows s.hStructure i) v') y = fun t => (if t = i then norm else 0) + rec t := by
          conv_lhs => rw [hsplit]
          rw [reflect_add, k5, hw]
        rw [hfinal]
        symm
        apply sparseAt_ext (columnRows_nodup sh.rWf hjr)
        · exact colVals_length sh.rWf (by rw [List.length_set]; exact hrv₁) hjr
        · intro p r hpr
          have hplt := (List.getElem?_eq_some_iff.1 hpr).1
          rw [colVals_getElem? sh.rWf hjr hplt]
          rw [hrl] at hpr
          rcases Nat.lt_or_ge p rl.length with hp | hp
          · rw [List.getElem?_append_left hp] at hpr
            have hr : r < i := by
              rw [hrl] at hrsort
              exact (List.pairwise_append.1 hrsort).2.2 r (List.mem_of_getElem? hpr) i (by simp)
            have hrow : (columnRows s.rStructure i)[p]? = some r := by rw [hrl, List.getElem?_append_left hp, hpr]
            rw [List.getElem?_set_ne (by omega), h8 p r hrow hr, if_neg (by omega), zero_add, hrec]
            simp only
            rw [if_pos ⟨hr, List.mem_of_getElem? hrow⟩]
          · have hpe : p = rl.length := by omega
            subst hpe
            rw [List.getElem?_append_right le_rfl, Nat.sub_self] at hpr
            simp at hpr
            subst hpr
            rw [hlastpos, List.getElem?_set_self (by omega), if_pos rfl, hrec]
            simp
        · intro t ht
          have hti : t ≠ i := by
            rintro rfl
            exact ht (by rw [hrl]; simp)
          rw [if_neg hti, zero_add, hrec]
          simp [ht]

/-- The whole factorisation. -/
theorem factorize_spec {pa : SparseStructure} {s : SymbolicQr} {S : Nat → Nat → Nat → Prop}
    (sh : QrShape pa s.rowPermutation s.rStructure s.hStructure S) {a : SparseColMat ℝ} (ha : MatWellFormed a) {U : Nat → Nat → ℝ}
    (hU : Represents a U) (hrows : a.structure'.nrows = pa.nrows) (hcols : a.structure'.ncols = pa.ncols)
    (hperm : ∀ j, j < pa.ncols → ∃ c, s.colPermutation[j]? = some c ∧ c < a.structure'.ncols ∧ ∀ i, Has pa i j ↔ Has a.structure' i c)
    {B : Nat → Nat → ℝ} (hB : ∀ j c : Nat, s.colPermutation[j]? = some c → B j = permutedColumn pa.nrows s.rowPermutation U c) {q : Qr ℝ}
    (hsym : q.sym = s) (hr : q.r.structure' = s.rStructure) (hrl : q.r.values.length = s.rStructure.rowIndices.length)
    (hhl : q.hValues.length = s.hStructure.rowIndices.length) (hbl : q.hBetas.length = pa.ncols) (hxl : q.x.length = pa.nrows) :
    ∃ q', q.factorize a = .ok q' ∧ FactorizeInv pa s B pa.ncols q' := by
  obtain ⟨q', h1, h2⟩ := foldlM_range (fun k q => FactorizeInv pa s B k q) (factorizeColumn a) pa.ncols
    { q with r := ⟨q.r.structure', List.replicate q.r.values.length 0⟩, hValues := List.replicate q.hValues.length 0 }
    ⟨hsym, hr, by simpa using hrl, by simpa using hhl, hbl, hxl, fun i hi => by omega, fun i hi => by omega⟩
    (fun k hk q inv => factorizeColumn_spec sh ha hU hrows hperm hk hB inv)
  exact ⟨q', by rw [Qr.factorize, hcols]; exact h1, h2⟩

end Fiksi
