import Verif.Proofs.QrAny
/-!
# What the numeric factorisation computes, in any arithmetic
-/
namespace Fiksi

open Spec

section
variable {T : Type} [Add T] [Sub T] [Mul T] [Div T] [Neg T] [Zero T] [One T] [FloatOps T]

/-- The products of the entries of a sparse vector with those of `x`, added up from the left. -/
def dotAt (rows : List Nat) (values : List T) (x : Nat → T) : T := (rows.zip values).foldl (fun (tau : T) p => tau + p.2 * x p.1) 0

/-- The value at a row. -/
def valueAt (rows : List Nat) (values : List T) (t : Nat) : T := values.getD (rows.idxOf t) 0

/-- The reflection as computed. -/
def reflectWith (β : T) (rows : List Nat) (values : List T) (x : Nat → T) (t : Nat) : T :=
  if t ∈ rows then x t - valueAt rows values t * (dotAt rows values x * β) else x t

theorem dotAt_congr {rows : List Nat} {values : List T} {x y : Nat → T} (h : ∀ r ∈ rows, x r = y r) : dotAt rows values x = dotAt rows values y := by
  rw [dotAt, dotAt]
  generalize (0 : T) = z
  induction rows generalizing values z with
  | nil => rfl
  | cons r rows ih =>
    cases values with
    | nil => rfl
    | cons v values =>
      rw [List.zip_cons_cons, List.foldl_cons, List.foldl_cons, h r List.mem_cons_self]
      exact ih (fun r hr => h r (List.mem_cons_of_mem _ hr)) _

theorem addTau_steps (x values : List T) (rows : List Nat) (k : Nat) (vs : List T) (hvs : ∀ i, i < rows.length → values[k + i]? = vs[i]?)
    (hlen : vs.length = rows.length) (hx : ∀ r ∈ rows, r < x.length) (tau : T) :
    (rows.zipIdx k).foldlM (addTau x values) tau = .ok ((rows.zip vs).foldl (fun (tau : T) p => tau + p.2 * x.getD p.1 0) tau) := by
  induction rows generalizing k vs tau with
  | nil => rfl
  | cons r rows ih =>
    cases vs with
    | nil => simp at hlen
    | cons v vs =>
      have h0 := hvs 0 (by simp)
      simp only [Nat.add_zero, List.getElem?_cons_zero] at h0
      have hr := hx r List.mem_cons_self
      rw [List.zipIdx_cons, List.foldlM_cons, addTau, idx_of h0, ok_bind, idx_of (List.getElem?_eq_getElem hr), ok_bind, pure_eq_ok, ok_bind]
      rw [ih (k + 1) vs (fun i hi => by
        have := hvs (i + 1) (by simp; omega)
        rw [List.getElem?_cons_succ] at this
        rw [← this]; congr 1; omega) (by simpa using hlen) (fun r' hr' => hx r' (List.mem_cons_of_mem _ hr'))]
      rw [List.zip_cons_cons, List.foldl_cons]
      simp only
      rw [show x.getD r 0 = x[r] by simp [List.getD_eq_getElem?_getD, hr]]

theorem reflectEntry_steps (tau : T) (values : List T) (rows : List Nat) (hn : rows.Nodup) (k : Nat) (vs : List T)
    (hvs : ∀ i, i < rows.length → values[k + i]? = vs[i]?) (hlen : vs.length = rows.length) (x : List T) (hx : ∀ r ∈ rows, r < x.length) :
    ∃ y, (rows.zipIdx k).foldlM (reflectEntry tau values) x = .ok y ∧ y.length = x.length ∧
      ∀ t, y.getD t 0 = if t ∈ rows then x.getD t 0 - valueAt rows vs t * tau else x.getD t 0 := by
  induction rows generalizing k vs x with
  | nil => exact ⟨x, rfl, rfl, by simp⟩
  | cons r rows ih =>
    obtain ⟨hn1, hn2⟩ := List.nodup_cons.1 hn
    cases vs with
    | nil => simp at hlen
    | cons v vs =>
      have h0 := hvs 0 (by simp)
      simp only [Nat.add_zero, List.getElem?_cons_zero] at h0
      have hr := hx r List.mem_cons_self
      rw [List.zipIdx_cons, List.foldlM_cons, reflectEntry, idx_of (List.getElem?_eq_getElem hr), ok_bind, idx_of h0, ok_bind, setIdx_of _ hr,
        ok_bind]
      obtain ⟨y, h1, h2, h3⟩ := ih hn2 (k + 1) vs (fun i hi => by
        have := hvs (i + 1) (by simp; omega)
        rw [List.getElem?_cons_succ] at this
        rw [← this]; congr 1; omega) (by simpa using hlen) (x.set r (x[r] - v * tau)) (fun r' hr' => by
          rw [List.length_set]; exact hx r' (List.mem_cons_of_mem _ hr'))
      refine ⟨y, h1, by rw [h2, List.length_set], ?_⟩
      intro t
      rw [h3, getD_set _ _ hr]
      by_cases ht : t = r
      · subst ht
        rw [if_neg hn1, if_pos rfl, if_pos List.mem_cons_self, valueAt, List.idxOf_cons_self, List.getD_cons_zero]
        rw [show x.getD t 0 = x[t] by simp [List.getD_eq_getElem?_getD, hr]]
      · rw [if_neg ht]
        by_cases hm : t ∈ rows
        · rw [if_pos hm, if_pos (List.mem_cons_of_mem _ hm), valueAt, valueAt, List.idxOf_cons_ne _ (Ne.symm ht), List.getD_cons_succ]
        · rw [if_neg hm, if_neg (by simp [ht, hm])]

/-- `apply_householder`. -/
theorem applyHouseholder_steps {x : List T} {β : T} {rows : List Nat} (hn : rows.Nodup) {values : List T} (hlen : values.length = rows.length)
    (hx : ∀ r ∈ rows, r < x.length) :
    ∃ y, applyHouseholder x β rows values = .ok y ∧ y.length = x.length ∧ ∀ t, y.getD t 0 = reflectWith β rows values (fun t => x.getD t 0) t := by
  obtain ⟨y, h1, h2, h3⟩ := reflectEntry_steps (dotAt rows values (fun t => x.getD t 0) * β) values rows hn 0 values
    (fun i _ => by rw [Nat.zero_add]) hlen x hx
  refine ⟨y, ?_, h2, h3⟩
  rw [applyHouseholder, addTau_steps x values rows 0 values (fun i _ => by rw [Nat.zero_add]) hlen hx, ok_bind]
  exact h1

/-- A column after the first `k` reflectors that it meets. -/
def reduced (s : SymbolicQr) (hValues hBetas : List T) (j : Nat) (x : Nat → T) : Nat → Nat → T
  | 0 => x
  | k + 1 => if k ∈ columnRows s.rStructure j then
      reflectWith (hBetas.getD k 0) (columnRows s.hStructure k) (colVals s.hStructure hValues k) (reduced s hValues hBetas j x k)
    else reduced s hValues hBetas j x k

theorem reduced_gap {s : SymbolicQr} {hValues hBetas : List T} {j : Nat} {x : Nat → T} {k : Nat} (k' : Nat) (hk : k ≤ k')
    (hgap : ∀ i, k ≤ i → i < k' → i ∉ columnRows s.rStructure j) : reduced s hValues hBetas j x k' = reduced s hValues hBetas j x k := by
  induction k' with
  | zero =>
    obtain rfl : k = 0 := by omega
    rfl
  | succ k' ih =>
    rcases Nat.eq_or_lt_of_le hk with rfl | hlt
    · rfl
    · rw [reduced, if_neg (hgap k' (by omega) (by omega)), ih (by omega) (fun i h1 h2 => hgap i h1 (by omega))]

theorem reduced_mono {s : SymbolicQr} {hValues hBetas : List T} {j : Nat} {x : Nat → T} {t k : Nat} (k' : Nat) (hk : k ≤ k')
    (h : ∀ i, k ≤ i → i < k' → t ∉ columnRows s.hStructure i) : reduced s hValues hBetas j x k' t = reduced s hValues hBetas j x k t := by
  induction k' with
  | zero =>
    obtain rfl : k = 0 := by omega
    rfl
  | succ k' ih =>
    rcases Nat.eq_or_lt_of_le hk with rfl | hlt
    · rfl
    · rw [reduced]
      split
      · rw [reflectWith, if_neg (h k' (by omega) (by omega)), ih (by omega) (fun i h1 h2 => h i h1 (by omega))]
      · exact ih (by omega) (fun i h1 h2 => h i h1 (by omega))

section
variable {a : SparseStructure} {s : SymbolicQr} {S : Nat → Nat → Nat → Prop}
  (sh : QrShape a s.rowPermutation s.rStructure s.hStructure S) {j : Nat} (hj : j < a.ncols)
include sh hj

/-- The loop over the entries of a column of `R`. -/
theorem reduce_steps {hValues hBetas x₀ rv : List T} (hhv : hValues.length = s.hStructure.rowIndices.length) (hhb : hBetas.length = a.ncols)
    (hx₀ : x₀.length = a.nrows) (hrv : rv.length = s.rStructure.rowIndices.length) {y : Nat → Nat → T}
    (hy : y = reduced s hValues hBetas j (fun t => x₀.getD t 0)) :
    ∃ x₁ rv₁, (columnRows s.rStructure j).zipIdx.foldlM (reduceEntry s hValues hBetas j) (x₀, rv) = .ok (x₁, rv₁) ∧ x₁.length = a.nrows ∧
      rv₁.length = rv.length ∧ (∀ t, x₁.getD t 0 = if t < j ∧ t ∈ columnRows s.rStructure j then 0 else y j t) ∧
      (∀ i k : Nat, (columnRows s.rStructure j)[i]? = some k → k < j → rv₁[s.rStructure.columnPointers.getD j 0 + i]? = some (y j k)) ∧
      ∀ p, p < s.rStructure.columnPointers.getD j 0 ∨ s.rStructure.columnPointers.getD (j + 1) 0 ≤ p → rv₁[p]? = rv[p]? := by
  have hjr : j < s.rStructure.ncols := by rw [sh.rCols]; exact hj
  have hsort := sh.rWf.columnRows_sorted hjr
  obtain ⟨⟨x₁, rv₁⟩, h1, h2, h3, h4, h5, h6⟩ := foldlM_prefix (fun (pre : List (Nat × Nat)) (st : List T × List T) =>
      st.1.length = a.nrows ∧ st.2.length = rv.length ∧
      (∀ K, K ≤ j → (∀ t, t < j → t ∈ columnRows s.rStructure j → (t < K ↔ t ∈ pre.map Prod.fst)) →
        ∀ t, st.1.getD t 0 = if t < j ∧ t ∈ pre.map Prod.fst then 0 else y K t) ∧
      (∀ p ∈ pre, p.1 < j → st.2[s.rStructure.columnPointers.getD j 0 + p.2]? = some (y j p.1)) ∧
      (∀ p, p < s.rStructure.columnPointers.getD j 0 ∨ s.rStructure.columnPointers.getD (j + 1) 0 ≤ p → st.2[p]? = rv[p]?))
    (reduceEntry s hValues hBetas j) (columnRows s.rStructure j).zipIdx (x₀, rv)
    ⟨hx₀, rfl, by
      intro K hK hgap t
      simp only [List.map_nil, List.not_mem_nil, and_false, if_false]
      rw [hy, reduced_gap (k := 0) K (Nat.zero_le _) (fun i _ hi hmem => by
        have := (hgap i (by omega) hmem).1 hi
        simp at this)]
      rfl, by simp, fun _ _ => rfl⟩ (by
    rintro pre ⟨k, i⟩ post ⟨x, w⟩ hl ⟨e1, e2, e3, e4, e5⟩
    simp only at e1 e2 e3 e4 e5
    obtain ⟨hi, hsplit, hki⟩ := zipIdx_split hl
    have hkmem : k ∈ columnRows s.rStructure j := List.mem_of_getElem? hki
    have hkj := sh.rLe j hj k hkmem
    have hilt := (List.getElem?_eq_some_iff.1 hki).1
    have hpos := columnRows_lt sh.rWf hjr hilt
    rw [reduceEntry]
    by_cases hkeq : k = j
    · refine ⟨(x, w), by rw [if_pos hkeq]; rfl, e1, e2, ?_, ?_, e5⟩
      · intro K hK hgap t
        have hmem : ∀ t, t < j → (t ∈ (pre ++ [(k, i)]).map Prod.fst ↔ t ∈ pre.map Prod.fst) := by
          intro t ht
          simp only [List.map_append, List.map_cons, List.map_nil, List.mem_append, List.mem_singleton]
          constructor
          · rintro (h | h)
            · exact h
            · omega
          · exact Or.inl
        rw [e3 K hK (fun t h1 h2 => by rw [hgap t h1 h2, hmem t h1]) t]
        by_cases htj : t < j
        · simp only [hmem t htj]
        · simp [htj]
      · intro p hp hpj
        rcases List.mem_append.1 hp with hp | hp
        · exact e4 p hp hpj
        · simp at hp
          subst hp
          simp at hpj
          omega
    · rw [if_neg hkeq]
      have hklt : k < j := lt_of_le_of_ne hkj hkeq
      have hkn : k < a.ncols := by omega
      have hkh : k < s.hStructure.ncols := by rw [sh.hCols]; exact hkn
      have hpre : ∀ t ∈ pre.map Prod.fst, t < k := by
        intro t ht
        rw [hsplit] at hsort
        exact (List.pairwise_append.1 hsort).2.2 t ht k (by simp)
      have hpost : ∀ t ∈ post.map Prod.fst, k < t := by
        intro t ht
        rw [hsplit] at hsort
        exact (List.pairwise_cons.1 (List.pairwise_append.1 hsort).2.1).1 t ht
      have hmemT : ∀ t, t ∈ columnRows s.rStructure j ↔ t ∈ pre.map Prod.fst ∨ t = k ∨ t ∈ post.map Prod.fst := by
        intro t
        rw [hsplit]
        simp only [List.mem_append, List.mem_cons]
      have hxk := e3 k hkj (by
        intro t _ ht
        constructor
        · intro h1
          rcases (hmemT t).1 ht with h | h | h
          · exact h
          · omega
          · have := hpost t h; omega
        · exact hpre t)
      have hbeta : idx hBetas k = .ok (hBetas.getD k 0) := idx_of (getElem?_of_getD (by omega))
      obtain ⟨x', f1, f2, f3⟩ := applyHouseholder_steps (x := x) (β := hBetas.getD k 0) (rows := columnRows s.hStructure k)
        (columnRows_nodup sh.hWf hkh) (values := colVals s.hStructure hValues k) (colVals_length sh.hWf hhv hkh) (fun r hr => by
          rw [e1, ← sh.hRows]; exact sh.hWf.columnRows_bound hr)
      have hrows : ∀ t ∈ columnRows s.hStructure k, x.getD t 0 = y k t := by
        intro t ht
        rw [hxk t, if_neg]
        rintro ⟨-, ht'⟩
        have h1 := sh.hGe k hkn t ht
        have h2 := hpre t ht'
        omega
      have hx' : ∀ t, x'.getD t 0 = if t < j ∧ t ∈ pre.map Prod.fst then 0 else y (k + 1) t := by
        intro t
        have hstep : y (k + 1) = reflectWith (hBetas.getD k 0) (columnRows s.hStructure k) (colVals s.hStructure hValues k) (y k) := by
          rw [hy, reduced, if_pos hkmem]
        rw [f3, hstep, reflectWith, reflectWith, dotAt_congr hrows]
        by_cases ht : t ∈ columnRows s.hStructure k
        · rw [if_pos ht, if_pos ht, hrows t ht, if_neg]
          rintro ⟨-, ht'⟩
          have h1 := sh.hGe k hkn t ht
          have h2 := hpre t ht'
          omega
        · rw [if_neg ht, if_neg ht]
          exact hxk t
      have hkpre : k ∉ pre.map Prod.fst := fun hmem => by have := hpre k hmem; omega
      have hkx : k < x'.length := by rw [f2, e1]; have := sh.le; omega
      have hyk : x'.getD k 0 = y j k := by
        rw [hx', if_neg (by simp only [not_and]; exact fun _ => hkpre), hy]
        symm
        apply reduced_mono j (by omega)
        intro i h1 h2 hmem
        have := sh.hGe i (by omega) k hmem
        omega
      have hstart : idx s.rStructure.columnPointers j = .ok (s.rStructure.columnPointers.getD j 0) := idx_of (sh.rWf.pointer (by omega))
      rw [householderColumn_eq sh.hWf hhv hkh, ok_bind, hbeta, ok_bind, sh.hWf.indexColumn hkh, ok_bind]
      have hpw : s.rStructure.columnPointers.getD j 0 + i < w.length := by omega
      rw [f1, ok_bind, hstart, ok_bind, idx_of (getElem?_of_getD hkx), ok_bind, setIdx_of _ hpw, ok_bind, setIdx_of _ hkx, ok_bind]
      refine ⟨_, rfl, ?_, ?_, ?_, ?_, ?_⟩
      · simp only [List.length_set]
        rw [f2, e1]
      · simp only [List.length_set]
        exact e2
      · intro K hK hgap t
        have hkK : k < K := by
          rw [hgap k hklt hkmem]
          simp
        have hyK : y K = y (k + 1) := by
          rw [hy]
          apply reduced_gap K hkK
          intro i h1 h2 hmem
          have h3 := (hgap i (by omega) hmem).1 h2
          simp only [List.map_append, List.map_cons, List.map_nil, List.mem_append, List.mem_singleton] at h3
          rcases h3 with h3 | h3
          · have := hpre i h3; omega
          · omega
        simp only
        rw [getD_set _ _ hkx, hx', hyK]
        by_cases htk : t = k
        · subst htk
          rw [if_pos rfl, if_pos (by simp [hklt])]
        · rw [if_neg htk]
          have hm : t ∈ List.map Prod.fst (pre ++ [(k, i)]) ↔ t ∈ List.map Prod.fst pre := by
            rw [List.map_append, List.mem_append, List.map_cons, List.map_nil, List.mem_singleton]
            exact ⟨fun h => h.resolve_right htk, Or.inl⟩
          simp only [hm]
      · intro p hp hpj
        simp only
        rcases List.mem_append.1 hp with hp | hp
        · have hne : s.rStructure.columnPointers.getD j 0 + i ≠ s.rStructure.columnPointers.getD j 0 + p.2 := by
            intro heq
            have hp2 : p.2 < pre.length := by
              obtain ⟨q, hq⟩ := List.mem_iff_getElem?.1 hp
              have hq' := (List.getElem?_eq_some_iff.1 hq).1
              have h7 : (columnRows s.rStructure j).zipIdx[q]? = some p := by rw [hl, List.getElem?_append_left hq', hq]
              rw [List.getElem?_zipIdx] at h7
              cases h8 : (columnRows s.rStructure j)[q]? with
              | none => rw [h8] at h7; simp at h7
              | some z =>
                rw [h8] at h7
                simp at h7
                rw [← h7]
                exact hq'
            omega
          rw [List.getElem?_set_ne hne]
          exact e4 p hp hpj
        · simp only [List.mem_singleton] at hp
          subst hp
          rw [List.getElem?_set_self (by omega), hyk]
      · intro p hp
        simp only
        rw [List.getElem?_set_ne (by omega)]
        exact e5 p hp)
  simp only at h2 h3 h4 h5 h6
  refine ⟨x₁, rv₁, h1, h2, h3, ?_, ?_, h6⟩
  · have hfst : (columnRows s.rStructure j).zipIdx.map Prod.fst = columnRows s.rStructure j := by simp
    intro t
    rw [h4 j le_rfl (fun t h7 h8 => by rw [hfst]; simp [h7, h8]) t, hfst]
  · intro i k hik hk
    refine h5 (k, i) ?_ hk
    rw [List.mem_iff_getElem?]
    exact ⟨i, by rw [List.getElem?_zipIdx, hik]; simp⟩

/-- A column of the factorisation. -/
theorem factorizeColumn_steps {m : SparseColMat T} (hm : MatWellFormed m) {U : Nat → Nat → T} (hU : Represents m U)
    (hrows : m.structure'.nrows = a.nrows) {c : Nat} (hc : s.colPermutation[j]? = some c) (hcn : c < m.structure'.ncols) {q : Qr T}
    (hq : q.Fits s a) {y : Nat → T}
    (hy : y = reduced s q.hValues q.hBetas j (permutedColumn a.nrows s.rowPermutation U c) j) :
    ∃ q' norm β v' w, factorizeColumn m q j = .ok q' ∧ q'.Fits s a ∧ w.length = (columnRows s.hStructure j).length ∧
      (∀ i r : Nat, (columnRows s.hStructure j)[i]? = some r → w[i]? = some (y r)) ∧
      calculateHouseholder w = .ok (norm, β, v') ∧ v'.length = w.length ∧
      (∀ i, i < j → q'.hBetas.getD i 0 = q.hBetas.getD i 0 ∧ colVals s.hStructure q'.hValues i = colVals s.hStructure q.hValues i ∧
        colVals s.rStructure q'.r.values i = colVals s.rStructure q.r.values i) ∧
      q'.hBetas.getD j 0 = β ∧ colVals s.hStructure q'.hValues j = v' ∧
      ∀ p k : Nat, (columnRows s.rStructure j)[p]? = some k → (colVals s.rStructure q'.r.values j)[p]? = some (if k = j then norm else y k) := by
  obtain ⟨x₀, h1, h2, h3⟩ := scatter_spec sh.inj sh.real hm hrows hU hcn
  have hjr : j < s.rStructure.ncols := by rw [sh.rCols]; exact hj
  have hjh : j < s.hStructure.ncols := by rw [sh.hCols]; exact hj
  have hx₀ : (fun t => x₀.getD t 0) = permutedColumn a.nrows s.rowPermutation U c := funext h3
  obtain ⟨x₁, rv₁, h4, h5, h6, h7, h8, h9⟩ := reduce_steps sh hj (hValues := q.hValues) (hBetas := q.hBetas) (x₀ := x₀) (rv := q.r.values)
    hq.hLen hq.bLen h2 hq.rLen rfl
  rw [hx₀, ← hy] at h7 h8
  obtain ⟨x₂, hv₁, g1, g2, g3, g4, g5⟩ := gather_spec sh hj (hv := q.hValues) (x₁ := x₁) hq.hLen h5
  have hlenH : (colVals s.hStructure hv₁ j).length = (columnRows s.hStructure j).length := colVals_length sh.hWf (by rw [g3, hq.hLen]) hjh
  have hne : colVals s.hStructure hv₁ j ≠ [] := by
    intro hnil
    have := sh.hHead j hj
    rw [hnil, List.length_nil] at hlenH
    rw [List.eq_nil_of_length_eq_zero hlenH.symm] at this
    simp at this
  obtain ⟨norm, β, v', k1, k2⟩ := calculateHouseholder_any hne
  have hp1 := sh.hWf.pointer_mono (i := j) (j := j + 1) (by omega) hjh
  have hp2 := sh.hWf.pointer_le (j := j + 1) hjh
  set P := s.hStructure.columnPointers.getD j 0 with hP
  set P' := s.hStructure.columnPointers.getD (j + 1) 0 with hP'
  have hcl := sh.hWf.columnRows_length hjh
  set hv₂ := hv₁.take P ++ v' ++ hv₁.drop P' with hhv₂
  have hhl : hv₁.length = s.hStructure.rowIndices.length := by rw [g3, hq.hLen]
  have htake : (hv₁.take P).length = P := by rw [List.length_take]; omega
  have hvl : v'.length = P' - P := by rw [k2, hlenH, hcl]
  have hlen₂ : hv₂.length = s.hStructure.rowIndices.length := by
    rw [hhv₂, List.length_append, List.length_append, htake, hvl, List.length_drop]
    omega
  have hget₂ : ∀ p, p < P → hv₂[p]? = q.hValues[p]? := by
    intro p hp
    rw [hhv₂, List.append_assoc, List.getElem?_append_left (by omega), List.getElem?_take, if_pos hp]
    exact g5 p (Or.inl hp)
  have hcol₂ : colVals s.hStructure hv₂ j = v' := by
    rw [colVals, hhv₂, ← hP, ← hP', List.append_assoc, List.drop_append_of_le_length (by omega), List.drop_of_length_le (by omega),
      List.nil_append, List.take_append_of_le_length (by omega), List.take_of_length_le (by omega)]
  have hold : ∀ i, i < j → colVals s.hStructure hv₂ i = colVals s.hStructure q.hValues i := by
    intro i hi
    apply colVals_congr
    intro p _ hp
    apply hget₂
    have := sh.hWf.pointer_mono (i := i + 1) (j := j) (by omega) (by omega)
    omega
  have hrp1 := sh.rWf.pointer_mono (i := j) (j := j + 1) (by omega) hjr
  have hrp2 := sh.rWf.pointer_le (j := j + 1) hjr
  have hrcl := sh.rWf.columnRows_length hjr
  obtain ⟨rl, hrl⟩ := List.getLast?_eq_some_iff.1 (sh.rLast j hj)
  have hrlen : (columnRows s.rStructure j).length = rl.length + 1 := by rw [hrl]; simp
  have hrsort := sh.rWf.columnRows_sorted hjr
  have hlastpos : s.rStructure.columnPointers.getD (j + 1) 0 - 1 = s.rStructure.columnPointers.getD j 0 + rl.length := by omega
  have hrv₁ : rv₁.length = s.rStructure.rowIndices.length := by rw [h6, hq.rLen]
  have hset : s.rStructure.columnPointers.getD (j + 1) 0 - 1 < rv₁.length := by omega
  refine ⟨⟨s, ⟨q.r.structure', rv₁.set (s.rStructure.columnPointers.getD (j + 1) 0 - 1) norm⟩, hv₂, q.hBetas.set j β, x₂⟩, norm, β, v',
    colVals s.hStructure hv₁ j, ?_, ⟨rfl, hq.rStruct, by simpa using hrv₁, hlen₂, by simpa using hq.bLen, g2⟩, hlenH, ?_, k1, k2, ?_, ?_, hcol₂, ?_⟩
  · rw [factorizeColumn, hq.sym, idx_of hc, ok_bind, hm.indexColumn hcn, ok_bind, hq.xLen]
    simp only
    rw [h1, ok_bind, sh.rWf.indexColumn hjr, ok_bind, h4, ok_bind]
    simp only
    rw [sh.hWf.indexColumn hjh, ok_bind, g1, ok_bind]
    simp only
    rw [idx_of (sh.hWf.pointer (by omega)), ok_bind, idx_of (sh.hWf.pointer (by omega)), ok_bind,
      sliceIdx_of (sh.hWf.pointer_mono (by omega) hjh) (by rw [hhl]; exact hp2), ok_bind]
    have hk1 : calculateHouseholder ((hv₁.drop (s.hStructure.columnPointers.getD j 0)).take
        (s.hStructure.columnPointers.getD (j + 1) 0 - s.hStructure.columnPointers.getD j 0)) = .ok (norm, β, v') := k1
    rw [hk1, ok_bind]
    simp only
    rw [setIdx_of _ (by rw [hq.bLen]; exact hj), ok_bind, idx_of (sh.rWf.pointer (by omega)), ok_bind, checkedSub, if_pos (by omega), ok_bind,
      setIdx_of _ hset, ok_bind]
    rfl
  · intro i r hir
    rw [colVals_getElem? sh.hWf hjh (List.getElem?_eq_some_iff.1 hir).1]
    have := g4 i r hir
    rw [h7, if_neg (by have := sh.hGe j hj r (List.mem_of_getElem? hir); omega)] at this
    exact this
  · intro i hi
    refine ⟨?_, hold i hi, ?_⟩
    · simp only
      rw [getD_set _ _ (by rw [hq.bLen]; exact hj), if_neg (by omega)]
    · apply colVals_congr
      intro p _ hp
      have h10 := sh.rWf.pointer_mono (i := i + 1) (j := j) (by omega) (by omega)
      simp only
      rw [List.getElem?_set_ne (by omega), h9 p (Or.inl (by omega))]
  · simp only
    rw [getD_set _ _ (by rw [hq.bLen]; exact hj), if_pos rfl]
  · intro p r hpr
    have hplt := (List.getElem?_eq_some_iff.1 hpr).1
    rw [colVals_getElem? sh.rWf hjr hplt]
    simp only
    have hrow := hpr
    rw [hrl] at hpr
    rcases Nat.lt_or_ge p rl.length with hp | hp
    · rw [List.getElem?_append_left hp] at hpr
      have hr : r < j := by
        rw [hrl] at hrsort
        exact (List.pairwise_append.1 hrsort).2.2 r (List.mem_of_getElem? hpr) j (by simp)
      rw [List.getElem?_set_ne (by omega), h8 p r hrow hr, if_neg (by omega)]
    · have hpe : p = rl.length := by omega
      subst hpe
      rw [List.getElem?_append_right le_rfl, Nat.sub_self] at hpr
      simp at hpr
      subst hpr
      rw [hlastpos, List.getElem?_set_self (by omega), if_pos rfl]

end

end

end Fiksi
