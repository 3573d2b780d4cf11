import Verif.Proofs.RoundedReflector
/-!
# The factorisation in rounded arithmetic
-/
namespace Fiksi

open Spec

section
variable {T : Type} [Zero T]

theorem valueAt_getElem {rows : List Nat} (hn : rows.Nodup) {values : List T} {i r : Nat} (hr : rows[i]? = some r) :
    valueAt rows values r = values.getD i 0 := by
  obtain ⟨hi, rfl⟩ := List.getElem?_eq_some_iff.1 hr
  rw [valueAt, hn.idxOf_getElem]

/-- The entries of a sparse matrix. -/
def entryAt (s : SparseStructure) (values : List T) (t j : Nat) : T :=
  if t ∈ columnRows s j then valueAt (columnRows s j) (colVals s values j) t else 0

theorem entryAt_represents {r : SparseStructure} (hr : WellFormed r) {rv : List T} (hlen : rv.length = r.rowIndices.length) :
    MatWellFormed (⟨r, rv⟩ : SparseColMat T) ∧ Represents (⟨r, rv⟩ : SparseColMat T) (entryAt r rv) := by
  have hm : MatWellFormed (⟨r, rv⟩ : SparseColMat T) := ⟨hr, hlen⟩
  refine ⟨hm, ?_, ?_⟩
  · intro i j v hst
    have hj : j < r.ncols := by
      obtain ⟨p, ⟨start, stop, h1, h2, -⟩, -⟩ := hst
      have := (List.getElem?_eq_some_iff.1 h2).1
      rw [hr.count] at this
      omega
    rw [hm.stored_iff hj, List.mem_iff_getElem?] at hst
    obtain ⟨p, hp⟩ := hst
    obtain ⟨h1, h2⟩ := List.getElem?_zip_eq_some.1 hp
    rw [entryAt, if_pos (List.mem_of_getElem? h2), valueAt_getElem (columnRows_nodup hr hj) h2, List.getD_eq_getElem?_getD]
    have h1' : (colVals r rv j)[p]? = some v := h1
    rw [h1']
    rfl
  · intro i j hn
    rw [entryAt, if_neg]
    intro hmem
    rcases Nat.lt_or_ge j r.ncols with hj | hj
    · exact hn ((hr.mem_columnRows hj).1 hmem)
    · rw [columnRows_out hr hj] at hmem
      simp at hmem

end

theorem nodup_length_le {rows : List Nat} (hn : rows.Nodup) {m : Nat} (h : ∀ t ∈ rows, t < m) : rows.length ≤ m := by
  have := (List.subperm_of_subset hn (l₂ := List.range m) (fun t ht => List.mem_range.2 (h t ht))).length_le
  simpa using this

/-- The relative error of applying a reflector to a vector with `m` entries. -/
noncomputable def stepError (u : ℝ) (m : Nat) : ℝ := 3 * gap u (8 * m + 20)

/-- The computed reflectors are close to exact reflectors. -/
structure NearReflectors {A : Arith} (u : ℝ) (m k : Nat) (h : SparseStructure) (hValues hBetas : List (Fl A)) (b : Nat → ℝ) (v : Nat → Nat → ℝ) : Prop where
  orth : ∀ i, i < k → Orthogonal m (b i) (v i)
  supp : ∀ i t, t ∉ columnRows h i → v i t = 0
  beta : ∀ i, i < k → Near u (3 * m + 8) (hBetas.getD i 0).val (b i)
  vec : ∀ i, i < k → ∀ t ∈ columnRows h i, Near u (2 * m + 4) (valueAt (columnRows h i) (colVals h hValues i) t).val (v i t)

section
variable {A : Arith} {u : ℝ} (hA : A.Accurate u) {pa : SparseStructure} {s : SymbolicQr} {S : Nat → Nat → Nat → Prop}
  (sh : QrShape pa s.rowPermutation s.rStructure s.hStructure S)
include hA sh

omit sh in
theorem stepError_nonneg (m : Nat) : 0 ≤ stepError u m := mul_nonneg (by norm_num) (gap_nonneg hA.pos hA.lt_one _)

theorem NearReflectors.apply {k : Nat} {hValues hBetas : List (Fl A)} {b : Nat → ℝ} {v : Nat → Nat → ℝ}
    (h : NearReflectors u pa.nrows k s.hStructure hValues hBetas b v) (hlen : hValues.length = s.hStructure.rowIndices.length) {i : Nat} (hi : i < k)
    (hin : i < pa.ncols) (x : Nat → Fl A) :
    nrm pa.nrows (fun t => (reflectWith (hBetas.getD i 0) (columnRows s.hStructure i) (colVals s.hStructure hValues i) x t).val -
      reflect pa.nrows (b i) (v i) (fun t => (x t).val) t) ≤ stepError u pa.nrows * nrm pa.nrows (fun t => (x t).val) := by
  have hih : i < s.hStructure.ncols := by rw [sh.hCols]; exact hin
  have hb : ∀ t ∈ columnRows s.hStructure i, t < pa.nrows := fun t ht => by rw [← sh.hRows]; exact sh.hWf.columnRows_bound ht
  have hn := columnRows_nodup sh.hWf hih
  have := reflectWith_rounded hA hn hb (nodup_length_le hn hb) (colVals_length sh.hWf hlen hih) (h.vec i hi) (h.supp i) (h.beta i hi) (h.orth i hi) x
  rw [show 2 * (2 * pa.nrows + 4) + (3 * pa.nrows + 8) + pa.nrows + 4 = 8 * pa.nrows + 20 by omega] at this
  exact this

/-- A column after the reflectors that it meets is what exact reflectors make of a column close to it. -/
theorem reduced_rounded {j : Nat} (hj : j < pa.ncols) {hValues hBetas : List (Fl A)} {b : Nat → ℝ} {v : Nat → Nat → ℝ}
    (h : NearReflectors u pa.nrows j s.hStructure hValues hBetas b v) (hlen : hValues.length = s.hStructure.rowIndices.length) (x : Nat → Fl A)
    (hx : ∀ t, (x t).val ≠ 0 → S 0 j t) : ∀ k, k ≤ j →
    (∀ t, (reduced s hValues hBetas j x k t).val ≠ 0 → S k j t) ∧
      ∃ Δ, nrm pa.nrows Δ ≤ ((1 + stepError u pa.nrows) ^ k - 1) * nrm pa.nrows (fun t => (x t).val) ∧
        reflectAll pa.nrows b v k (fun t => (x t).val + Δ t) = fun t => (reduced s hValues hBetas j x k t).val := by
  have hε := stepError_nonneg hA pa.nrows
  intro k
  induction k with
  | zero =>
    refine fun _ => ⟨hx, fun _ => 0, ?_, ?_⟩
    · have : nrm pa.nrows (fun _ => 0) = 0 := by simp [nrm]
      rw [this]
      simp
    · simp only [reflectAll, add_zero, reduced]
  | succ k ih =>
    intro hk
    obtain ⟨h1, Δ, h2, h3⟩ := ih (by omega)
    by_cases hmem : k ∈ columnRows s.rStructure j
    · refine ⟨?_, ?_⟩
      · intro t ht
        rw [reduced, if_pos hmem, reflectWith] at ht
        by_cases hth : t ∈ columnRows s.hStructure k
        · exact sh.grow k j t hj hmem hth
        · rw [if_neg hth] at ht
          exact sh.mono k j t (h1 t ht)
      · apply reflectAll_step (fun i hi => h.orth i (by omega)) h3 hε h2
        have := h.apply hA sh hlen (i := k) (by omega) (by omega) (reduced s hValues hBetas j x k)
        rw [reduced, if_pos hmem]
        exact this
    · refine ⟨?_, ?_⟩
      · intro t ht
        rw [reduced, if_neg hmem] at ht
        exact sh.mono k j t (h1 t ht)
      · apply reflectAll_step (fun i hi => h.orth i (by omega)) h3 hε h2
        rw [reflect_disjoint (fun t _ => ?_), reduced, if_neg hmem]
        · have : nrm pa.nrows (fun t => (reduced s hValues hBetas j x k t).val - (reduced s hValues hBetas j x k t).val) = 0 := by simp [nrm]
          rw [this]
          exact mul_nonneg hε (nrm_nonneg _)
        · by_cases hz : (reduced s hValues hBetas j x k t).val = 0
          · exact Or.inr hz
          · exact Or.inl (h.supp k t (sh.skip k j t hj (by omega) hmem (h1 t hz)))

/-- What holds after `k` columns. -/
structure RoundedInv (u : ℝ) (pa : SparseStructure) (s : SymbolicQr) (B : Nat → Nat → Fl A) (k : Nat) (q : Qr (Fl A)) (b : Nat → ℝ)
    (v : Nat → Nat → ℝ) : Prop where
  fits : q.Fits s pa
  near : NearReflectors u pa.nrows k s.hStructure q.hValues q.hBetas b v
  col : ∀ i, i < k → ∃ Δ, nrm pa.nrows Δ ≤ ((1 + stepError u pa.nrows) ^ (i + 1) - 1) * nrm pa.nrows (fun t => (B i t).val) ∧
    reflectAll pa.nrows b v (i + 1) (fun t => (B i t).val + Δ t) = fun t => (entryAt s.rStructure q.r.values t i).val

omit sh in
/-- The reflector of a vector. -/
theorem householder_rounded {rows : List Nat} {r : Nat} (hhead : rows.head? = some r) (hn : rows.Nodup) {m : Nat} (hm : ∀ r ∈ rows, r < m)
    {w : List (Fl A)} (hw : w.length = rows.length) {norm β : Fl A} {w' : List (Fl A)} (h : calculateHouseholder w = .ok (norm, β, w')) :
    ∃ (b : ℝ) (v : Nat → ℝ) (norm₀ : ℝ), Orthogonal m b v ∧ (∀ t, t ∉ rows → v t = 0) ∧ Near u (3 * m + 8) β.val b ∧
      (∀ t ∈ rows, Near u (2 * m + 4) (valueAt rows w' t).val (v t)) ∧ Near u (m + 2) norm.val norm₀ ∧
      ∀ x : Nat → ℝ, (∀ i t : Nat, rows[i]? = some t → (w.map Fl.val)[i]? = some (x t)) → (∀ t, t ∉ rows → x t = 0) →
        reflect m b v x = fun t => if t = r then norm₀ else 0 := by
  have h0 := hA.pos
  have h1 := hA.lt_one
  have hlm := nodup_length_le hn hm
  cases w with
  | nil => simp [calculateHouseholder] at h
  | cons v0 rest =>
    obtain ⟨norm', β', v', norm₀, β₀, v₀', g1, g2, g3, g4, g5⟩ := calculateHouseholder_rounded hA v0 rest
    rw [g1] at h
    simp only [Except.ok.injEq, Prod.mk.injEq] at h
    obtain ⟨rfl, rfl, rfl⟩ := h
    have hlw : ((v0 :: rest).map Fl.val).length = rows.length := by simpa using hw
    obtain ⟨norm₁, β₁, v₁, k1, k2, k3, k4, k5⟩ := householder_vector hhead hn hm hlw
    rw [List.map_cons, g2] at k1
    simp only [Except.ok.injEq, Prod.mk.injEq] at k1
    obtain ⟨rfl, rfl, rfl⟩ := k1
    simp only [List.length_cons] at hw
    refine ⟨β₀, sparseAt rows (v₀' :: rest.map Fl.val), norm₀, k3, fun t ht => sparseAt_eq_zero ht, g4.mono h0 h1 (by omega), ?_,
      g3.mono h0 h1 (by omega), ?_⟩
    · intro t ht
      obtain ⟨i, hi⟩ := List.mem_iff_getElem?.1 ht
      rw [valueAt_getElem hn hi]
      cases i with
      | zero =>
        rw [sparseAt_getElem hn hi (v := v₀') rfl, List.getD_cons_zero]
        exact g5.mono h0 h1 (by omega)
      | succ i =>
        have hlt := (List.getElem?_eq_some_iff.1 hi).1
        have hri : rest[i]? = some (rest[i]'(by omega)) := List.getElem?_eq_getElem _
        rw [sparseAt_getElem hn hi (v := (rest[i]'(by omega)).val) (by rw [List.getElem?_cons_succ, List.getElem?_map, hri]; rfl),
          List.getD_cons_succ, List.getD_eq_getElem?_getD, hri]
        exact ⟨1, Ratio.one h0 h1 _, (one_mul _).symm⟩
    · intro x hx1 hx2
      rw [← k5]
      congr 1
      exact (sparseAt_ext hn hlw hx1 hx2).symm

/-- A column. -/
theorem factorizeColumn_rounded {a : SparseColMat (Fl A)} (ha : MatWellFormed a) {U : Nat → Nat → Fl A}
    (hU : Represents a U) (hrows : a.structure'.nrows = pa.nrows)
    (hperm : ∀ j, j < pa.ncols → ∃ c, s.colPermutation[j]? = some c ∧ c < a.structure'.ncols ∧ ∀ i, Has pa i j ↔ Has a.structure' i c)
    {j : Nat} (hj : j < pa.ncols) {B : Nat → Nat → Fl A}
    (hB : ∀ j c : Nat, s.colPermutation[j]? = some c → B j = permutedColumn pa.nrows s.rowPermutation U c) {q : Qr (Fl A)} {b : Nat → ℝ}
    {v : Nat → Nat → ℝ} (inv : RoundedInv u pa s B j q b v) : ∃ q', factorizeColumn a q j = .ok q' ∧ ∃ b' v', RoundedInv u pa s B (j + 1) q' b' v' := by
  have h0 := hA.pos
  have h1 := hA.lt_one
  have hε := stepError_nonneg hA pa.nrows
  obtain ⟨c, hc, hcn, hhas⟩ := hperm j hj
  have hjr : j < s.rStructure.ncols := by rw [sh.rCols]; exact hj
  have hjh : j < s.hStructure.ncols := by rw [sh.hCols]; exact hj
  have hsupp : ∀ t, (B j t).val ≠ 0 → S 0 j t := by
    intro t ht
    rw [hB j c hc, permutedColumn] at ht
    split at ht
    · rename_i hlt
      obtain ⟨p, hp, -⟩ := sh.real _ hlt
      have hlt' := (List.getElem?_eq_some_iff.1 hp).1
      have hget : s.rowPermutation[s.rowPermutation.idxOf (some t)]? = some (some t) := by
        rw [List.getElem?_eq_getElem hlt', List.getElem_idxOf hlt']
      apply sh.init _ j t _ hget
      rw [hhas]
      by_contra hn
      rw [hU.zero _ _ hn] at ht
      exact ht rfl
    · exact absurd rfl ht
  obtain ⟨hS, Δ, hΔ1, hΔ2⟩ := reduced_rounded hA sh hj inv.near inv.fits.hLen (B j) hsupp j le_rfl
  obtain ⟨q', norm, β, w', w, g1, g2, g3, g4, g5, g6, g7, g8, g9, g10⟩ :=
    factorizeColumn_steps sh hj ha hU hrows hc hcn inv.fits (y := reduced s q.hValues q.hBetas j (B j) j) (by rw [hB j c hc])
  set y := reduced s q.hValues q.hBetas j (B j) j with hy
  have hbound : ∀ t ∈ columnRows s.hStructure j, t < pa.nrows := fun t ht => by rw [← sh.hRows]; exact sh.hWf.columnRows_bound ht
  have hndH : (columnRows s.hStructure j).Nodup := columnRows_nodup sh.hWf hjh
  obtain ⟨b₁, v₁, norm₀, k1, k2, k3, k4, k5, k6⟩ := householder_rounded hA (sh.hHead j hj) hndH hbound g3 g5
  refine ⟨q', g1, fun i => if i = j then b₁ else b i, fun i => if i = j then v₁ else v i, g2, ⟨?_, ?_, ?_, ?_⟩, ?_⟩
  · intro i hi
    beta_reduce
    by_cases hij : i = j
    · rw [if_pos hij, if_pos hij]; exact k1
    · rw [if_neg hij, if_neg hij]; exact inv.near.orth i (by omega)
  · intro i t ht
    beta_reduce
    by_cases hij : i = j
    · subst hij; rw [if_pos rfl]; exact k2 t ht
    · rw [if_neg hij]; exact inv.near.supp i t ht
  · intro i hi
    beta_reduce
    by_cases hij : i = j
    · subst hij; rw [if_pos rfl, g8]; exact k3
    · rw [if_neg hij, (g7 i (by omega)).1]; exact inv.near.beta i (by omega)
  · intro i hi t ht
    beta_reduce
    by_cases hij : i = j
    · subst hij; rw [if_pos rfl, g9]; exact k4 t ht
    · rw [if_neg hij, (g7 i (by omega)).2.1]; exact inv.near.vec i (by omega) t ht
  · intro i hi
    have hold : ∀ k (x : Nat → ℝ), k ≤ j → reflectAll pa.nrows (fun i => if i = j then b₁ else b i) (fun i => if i = j then v₁ else v i) k x =
        reflectAll pa.nrows b v k x := by
      intro k x hk
      apply reflectAll_congr
      intro i hi
      beta_reduce
      rw [if_neg (by omega), if_neg (by omega)]
      exact ⟨rfl, rfl⟩
    rcases Nat.eq_or_lt_of_le (Nat.lt_succ_iff.1 hi) with rfl | hlt
    · apply reflectAll_step (X := fun t => (y t).val) _ (by rw [hold i _ le_rfl]; exact hΔ2) hε hΔ1
      · beta_reduce
        rw [if_pos rfl, if_pos rfl]
        -- the part that is reflected
        have hsplit : (fun t => (y t).val) = fun t => (if t < i then (y t).val else 0) + (if t < i then 0 else (y t).val) := by
          funext t
          split <;> simp
        have hlow : reflect pa.nrows b₁ v₁ (fun t => if t < i then (y t).val else 0) = fun t => if t < i then (y t).val else 0 := by
          apply reflect_disjoint
          intro t _
          by_cases hti : t < i
          · left
            apply k2
            intro hmem
            have := sh.hGe i hj t hmem
            omega
          · right
            simp [hti]
        have hhigh := k6 (fun t => if t < i then 0 else (y t).val) (by
          intro p t hpt
          have := sh.hGe i hj t (List.mem_of_getElem? hpt)
          rw [List.getElem?_map, g4 p t hpt, if_neg (by omega)]
          rfl) (by
          intro t ht
          split
          · rfl
          · rename_i hti
            by_contra hne
            exact ht (sh.high i t hj (hS t hne) (by omega)))
        have hrefl : reflect pa.nrows b₁ v₁ (fun t => (y t).val) = fun t => (if t < i then (y t).val else 0) + (if t = i then norm₀ else 0) := by
          rw [hsplit, reflect_add, hlow, hhigh]
        have hndR := columnRows_nodup sh.rWf hjr
        have hY : (fun t => (entryAt s.rStructure q'.r.values t i).val - reflect pa.nrows b₁ v₁ (fun t => (y t).val) t) =
            fun t => if t = i then norm.val - norm₀ else 0 := by
          funext t
          rw [hrefl]
          have hent : (entryAt s.rStructure q'.r.values t i).val = if t = i then norm.val else if t < i then (y t).val else 0 := by
            rw [entryAt]
            by_cases hmem : t ∈ columnRows s.rStructure i
            · rw [if_pos hmem]
              obtain ⟨p, hp⟩ := List.mem_iff_getElem?.1 hmem
              rw [valueAt_getElem hndR hp, List.getD_eq_getElem?_getD, g10 p t hp, Option.getD_some]
              by_cases hti : t = i
              · rw [if_pos hti, if_pos hti]
              · have := sh.rLe i hj t hmem
                rw [if_neg hti, if_neg hti, if_pos (by omega)]
            · have hti : t ≠ i := by
                rintro rfl
                exact hmem (List.mem_of_getLast? (sh.rLast t hj))
              rw [if_neg hmem, if_neg hti, fl_zero]
              split
              · rename_i hlt
                by_contra hne
                exact hmem (sh.low i t hj (hS t (Ne.symm hne)) hlt)
              · rfl
          rw [hent]
          by_cases hti : t = i
          · simp [hti]
          · simp [hti]
        rw [hY]
        refine nrm_single.trans ?_
        refine (k5.abs h0 h1).trans ?_
        have hi' : i < pa.nrows := by have := sh.le; omega
        have e1 : |norm₀| ≤ nrm pa.nrows (fun t => (y t).val) := by
          rw [← reflect_nrm k1, hrefl]
          have := nrm_entry (m := pa.nrows) (x := fun t => (if t < i then (y t).val else 0) + (if t = i then norm₀ else 0)) hi'
          simpa using this
        have e2 : gap u (pa.nrows + 2) ≤ stepError u pa.nrows := by
          have e3 := gap_mono h0 h1 (show pa.nrows + 2 ≤ 8 * pa.nrows + 20 by omega)
          have e4 := gap_nonneg h0 h1 (8 * pa.nrows + 20)
          unfold stepError
          linarith
        exact mul_le_mul e2 e1 (abs_nonneg _) hε
      · intro i' hi'
        beta_reduce
        by_cases hij : i' = i
        · rw [if_pos hij, if_pos hij]; exact k1
        · rw [if_neg hij, if_neg hij]; exact inv.near.orth i' (by omega)
    · obtain ⟨Δ', e1, e2⟩ := inv.col i hlt
      refine ⟨Δ', e1, ?_⟩
      rw [hold _ _ (by omega), e2]
      funext t
      rw [entryAt, entryAt, (g7 i hlt).2.2]

/-- The whole factorisation. -/
theorem factorize_rounded {a : SparseColMat (Fl A)} (ha : MatWellFormed a) {U : Nat → Nat → Fl A}
    (hU : Represents a U) (hrows : a.structure'.nrows = pa.nrows) (hcols : a.structure'.ncols = pa.ncols)
    (hperm : ∀ j, j < pa.ncols → ∃ c, s.colPermutation[j]? = some c ∧ c < a.structure'.ncols ∧ ∀ i, Has pa i j ↔ Has a.structure' i c)
    {B : Nat → Nat → Fl A} (hB : ∀ j c : Nat, s.colPermutation[j]? = some c → B j = permutedColumn pa.nrows s.rowPermutation U c) {q : Qr (Fl A)}
    (hq : q.Fits s pa) : ∃ q', q.factorize a = .ok q' ∧ ∃ b v, RoundedInv u pa s B pa.ncols q' b v := by
  obtain ⟨q', h1, h2⟩ := foldlM_range (fun k q => ∃ b v, RoundedInv u pa s B k q b v) (factorizeColumn a) pa.ncols
    { q with r := ⟨q.r.structure', List.replicate q.r.values.length 0⟩, hValues := List.replicate q.hValues.length 0 }
    ⟨fun _ => 0, fun _ _ => 0, ⟨hq.sym, hq.rStruct, by simpa using hq.rLen, by simpa using hq.hLen, hq.bLen, hq.xLen⟩,
      ⟨fun i hi => by omega, fun _ _ _ => rfl, fun i hi => by omega, fun i hi => by omega⟩, fun i hi => by omega⟩
    (fun k hk q ⟨b, v, inv⟩ => factorizeColumn_rounded hA sh ha hU hrows hperm hk hB inv)
  exact ⟨q', by rw [Qr.factorize, hcols]; exact h1, h2⟩

/-- The reflectors applied to a right-hand side. -/
theorem qTrMul_rounded {B : Nat → Nat → Fl A} {q : Qr (Fl A)} {b : Nat → ℝ} {v : Nat → Nat → ℝ} (inv : RoundedInv u pa s B pa.ncols q b v)
    {c : List (Fl A)} (hc : c.length = pa.nrows) :
    ∃ (y Δ : Nat → ℝ) (c' : List (Fl A)), q.qTrMul c = .ok c' ∧ c'.length = pa.nrows ∧
      (∀ i t : Nat, i < pa.nrows → s.rowPermutation[i]? = some (some t) → y t = (c.getD i 0).val) ∧
      nrm pa.nrows Δ ≤ ((1 + stepError u pa.nrows) ^ pa.ncols - 1) * nrm pa.nrows y ∧
      reflectAll pa.nrows b v pa.ncols (fun t => y t + Δ t) = fun t => (c'.getD t 0).val := by
  have hε := stepError_nonneg hA pa.nrows
  obtain ⟨y, h1, h2, h3⟩ := scatterRhs_spec sh.inj sh.real sh.onto hc
  obtain ⟨c', h4, h5, Δ, h6, h7⟩ := foldlM_range (fun k (z : List (Fl A)) => z.length = pa.nrows ∧
      ∃ Δ, nrm pa.nrows Δ ≤ ((1 + stepError u pa.nrows) ^ k - 1) * nrm pa.nrows (fun t => (y.getD t 0).val) ∧
        reflectAll pa.nrows b v k (fun t => (y.getD t 0).val + Δ t) = fun t => (z.getD t 0).val)
    (applyReflector q) pa.ncols y ⟨h2, fun _ => 0, by
      have : nrm pa.nrows (fun _ => 0) = 0 := by simp [nrm]
      rw [this]
      simp, by simp [reflectAll]⟩ (by
    rintro k hk z ⟨e1, Δ, e2, e3⟩
    have hkh : k < s.hStructure.ncols := by rw [sh.hCols]; exact hk
    obtain ⟨z', f1, f2, f3⟩ := applyHouseholder_steps (x := z) (β := q.hBetas.getD k 0) (rows := columnRows s.hStructure k)
        (columnRows_nodup sh.hWf hkh) (values := colVals s.hStructure q.hValues k) (colVals_length sh.hWf inv.fits.hLen hkh) (fun r hr => by
          rw [e1, ← sh.hRows]; exact sh.hWf.columnRows_bound hr)
    have hbeta : idx q.hBetas k = .ok (q.hBetas.getD k 0) := idx_of (getElem?_of_getD (by rw [inv.fits.bLen]; exact hk))
    refine ⟨z', ?_, by rw [f2, e1], ?_⟩
    · rw [applyReflector, inv.fits.sym, sh.hWf.indexColumnRange hkh, ok_bind, sh.hWf.indexColumn hkh, ok_bind, hbeta, ok_bind,
        sliceIdx_of (sh.hWf.pointer_mono (by omega) hkh) (by rw [inv.fits.hLen]; exact sh.hWf.pointer_le hkh), ok_bind]
      exact f1
    · have hz : (fun t => (z'.getD t 0).val) = fun t => (reflectWith (q.hBetas.getD k 0) (columnRows s.hStructure k)
          (colVals s.hStructure q.hValues k) (fun t => z.getD t 0) t).val := by
        funext t
        rw [f3]
      rw [hz]
      exact reflectAll_step (fun i hi => inv.near.orth i (by omega)) e3 hε e2 (inv.near.apply hA sh inv.fits.hLen hk hk (fun t => z.getD t 0)))
  refine ⟨fun t => (y.getD t 0).val, Δ, c', ?_, h5, fun i t hi hit => by beta_reduce; rw [h3 i t hi hit], h6, h7⟩
  rw [Qr.qTrMul, inv.fits.sym, if_neg (by rw [sh.hRows]; omega), sh.hRows, sh.hCols, h1, ok_bind]
  exact h4

end

end Fiksi
