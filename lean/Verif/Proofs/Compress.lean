import Verif.Proofs.Sparse
import Mathlib.Data.List.Induction
/-!
# Compressing triplets
-/
namespace Fiksi

open Spec

/-- A fold with an invariant about the elements consumed so far. -/
theorem foldlM_prefix {α σ : Type} (P : List α → σ → Prop) (f : σ → α → R σ) (l : List α) (s : σ) (h0 : P [] s)
    (hstep : ∀ pre a post s, l = pre ++ a :: post → P pre s → ∃ s', f s a = .ok s' ∧ P (pre ++ [a]) s') :
    ∃ s', l.foldlM f s = .ok s' ∧ P l s' := by
  have key : ∀ (post pre : List α) s, l = pre ++ post → P pre s → ∃ s', post.foldlM f s = .ok s' ∧ P l s' := by
    intro post
    induction post with
    | nil =>
      intro pre s hl hP
      rw [List.append_nil] at hl
      exact ⟨s, rfl, hl ▸ hP⟩
    | cons a post ih =>
      intro pre s hl hP
      obtain ⟨s1, h1, h2⟩ := hstep pre a post s hl hP
      obtain ⟨s2, h3, h4⟩ := ih (pre ++ [a]) s1 (by rw [hl]; simp) h2
      refine ⟨s2, ?_, h4⟩
      rw [List.foldlM_cons, h1]
      exact h3
  exact key l [] s (by simp) h0

theorem fillPointers_spec {value start stop : Nat} {ps : List Nat} (hstop : stop < ps.length) :
    ∃ ps', fillPointers value start stop ps = .ok ps' ∧ ps'.length = ps.length ∧
      (∀ c, start ≤ c → c ≤ stop → ps'[c]? = some value) ∧ ∀ c, c < start → ps'[c]? = ps[c]? := by
  obtain ⟨ps', h1, h2, h3, h4⟩ := foldlM_prefix (fun (pre : List Nat) (s : List Nat) => s.length = ps.length ∧ (∀ c ∈ pre, s[c]? = some value) ∧
      ∀ c, c < start → s[c]? = ps[c]?) (fun (ps : List Nat) col => setIdx ps col value) (List.range' start (stop + 1 - start)) ps
      ⟨rfl, by simp, fun _ _ => rfl⟩ (by
    rintro pre a post s hl ⟨e1, e2, e3⟩
    have ha : a ∈ List.range' start (stop + 1 - start) := by rw [hl]; simp
    rw [List.mem_range'_1] at ha
    refine ⟨_, setIdx_of value (by omega), by simpa using e1, ?_, ?_⟩
    · intro c hc
      by_cases hca : a = c
      · subst hca
        rw [List.getElem?_set_self (by omega)]
      · rw [List.getElem?_set_ne hca]
        rcases List.mem_append.1 hc with hc | hc
        · exact e2 c hc
        · exact absurd (List.mem_singleton.1 hc).symm hca
    · intro c hc
      rw [List.getElem?_set_ne (by omega)]
      exact e3 c hc)
  refine ⟨ps', h1, h2, ?_, h4⟩
  intro c hc1 hc2
  exact h3 c (List.mem_range'_1.2 ⟨hc1, by omega⟩)

section
variable {T : Type} [Add T]

/-- `compressStep` with the triplet already read. -/
def compressTriple (st : CompressState T) (t : Nat × Nat × T) : R (CompressState T) := do
  if some t.1 = st.prevRow ∧ some t.2.1 = st.prevCol then do
    let last ← unwrap st.values.getLast?
    pure { st with values := st.values.dropLast ++ [last + t.2.2], prevRow := some t.1, prevCol := some t.2.1 }
  else do
    let pointers ← if some t.2.1 ≠ st.prevCol then fillPointers st.values.length (nextCol st.prevCol) t.2.1 st.columnPointers
      else pure st.columnPointers
    pure ⟨pointers, st.rowIndices ++ [t.1], st.values ++ [t.2.2], some t.1, some t.2.1⟩

omit [Add T] in
theorem triplets_getElem? {a : TripletMat T} {i : Nat} {t : Nat × Nat × T} :
    a.triplets[i]? = some t ↔ a.rowIndices[i]? = some t.1 ∧ a.colIndices[i]? = some t.2.1 ∧ a.values[i]? = some t.2.2 := by
  rw [TripletMat.triplets, List.getElem?_zip_eq_some, List.getElem?_zip_eq_some]

theorem compressStep_eq {a : TripletMat T} {i : Nat} {t : Nat × Nat × T} (h : a.triplets[i]? = some t) (st : CompressState T) :
    compressStep a st i = compressTriple st t := by
  obtain ⟨h1, h2, h3⟩ := triplets_getElem?.1 h
  rw [compressStep, compressTriple, idx_of h1, idx_of h2]
  simp only [ok_bind, idx_of h3]

theorem compressStep_foldlM {a : TripletMat T} (l : List Nat) (h : ∀ i ∈ l, i < a.triplets.length) (st : CompressState T) :
    l.foldlM (compressStep a) st = (l.filterMap (fun i => a.triplets[i]?)).foldlM compressTriple st := by
  induction l generalizing st with
  | nil => rfl
  | cons i l ih =>
    have hi : a.triplets[i]? = some _ := List.getElem?_eq_getElem (h i (by simp))
    rw [List.foldlM_cons, List.filterMap_cons, hi]
    simp only [List.foldlM_cons]
    rw [compressStep_eq hi]
    congr 1
    funext st'
    exact ih (fun j hj => h j (by simp [hj])) st'

/-- The position of a triplet. -/
def tripletPos (t : Nat × Nat × T) : Nat × Nat := (t.2.1, t.1)

/-- The sum of the values at a position, in their order. -/
def sumAt (l : List (Nat × Nat × T)) (k : Nat × Nat) : Option T := sumList ((l.filter (fun t => tripletPos t = k)).map (fun t => t.2.2))

/-- Adding a value to a sum. -/
def addTo (v : T) : Option T → T
  | none => v
  | some s => s + v

theorem sumList_append (l : List T) (v : T) : sumList (l ++ [v]) = some (addTo v (sumList l)) := by
  cases l with
  | nil => rfl
  | cons a l => simp [sumList, addTo]

theorem sumAt_append (l : List (Nat × Nat × T)) (t : Nat × Nat × T) (k : Nat × Nat) :
    sumAt (l ++ [t]) k = if tripletPos t = k then some (addTo t.2.2 (sumAt l k)) else sumAt l k := by
  unfold sumAt
  by_cases h : tripletPos t = k
  · rw [if_pos h, List.filter_append, List.map_append]
    simp only [List.filter_cons, h, decide_true, if_true, List.filter_nil, List.map_cons, List.map_nil]
    rw [sumList_append]
  · rw [if_neg h, List.filter_append, List.map_append]
    simp [h]

theorem sumAt_eq_none {l : List (Nat × Nat × T)} {k : Nat × Nat} (h : ∀ t ∈ l, tripletPos t ≠ k) : sumAt l k = none := by
  unfold sumAt
  rw [List.filter_eq_nil_iff.2 (by simpa using h)]
  rfl

theorem sumAt_isSome {l : List (Nat × Nat × T)} {k : Nat × Nat} {t : Nat × Nat × T} (h : t ∈ l) (hk : tripletPos t = k) :
    ∃ v, sumAt l k = some v := by
  unfold sumAt
  have hm : t ∈ l.filter (fun t => tripletPos t = k) := by simpa using ⟨h, hk⟩
  cases hf : l.filter (fun t => tripletPos t = k) with
  | nil => rw [hf] at hm; simp at hm
  | cons x xs => exact ⟨_, rfl⟩

/-- The invariant of the loop. -/
structure Compressing (ncols : Nat) (pre : List (Nat × Nat × T)) (st : CompressState T) (D : List (Nat × Nat)) : Prop where
  rows : st.rowIndices = D.map Prod.snd
  values : st.values.length = D.length
  sorted : D.Pairwise lexLt
  col : st.prevCol = D.getLast?.map Prod.fst
  row : st.prevRow = D.getLast?.map Prod.snd
  len : st.columnPointers.length = ncols + 1
  pointers : ∀ c, c < nextCol st.prevCol → st.columnPointers[c]? = some (before D c)
  mem : ∀ k, k ∈ D ↔ ∃ t ∈ pre, tripletPos t = k
  sums : ∀ (p : Nat) (k : Nat × Nat), D[p]? = some k → st.values[p]? = sumAt pre k

theorem le_getLast {D : List (Nat × Nat)} (hD : D.Pairwise lexLt) {d : Nat × Nat} (hd : D.getLast? = some d) {k : Nat × Nat} (hk : k ∈ D) :
    k = d ∨ lexLt k d := by
  obtain ⟨D', rfl⟩ := List.getLast?_eq_some_iff.1 hd
  rcases List.mem_append.1 hk with h | h
  · exact Or.inr ((List.pairwise_append.1 hD).2.2 k h d (by simp))
  · exact Or.inl (List.mem_singleton.1 h)

theorem before_eq_length {D : List (Nat × Nat)} {c : Nat} (h : ∀ d ∈ D, d.1 < c) : before D c = D.length := by
  rw [before, List.countP_eq_length]
  intro d hd
  simpa using h d hd

theorem before_append_singleton {D : List (Nat × Nat)} {k : Nat × Nat} {c : Nat} (h : c ≤ k.1) : before (D ++ [k]) c = before D c := by
  rw [before, List.countP_append, before]
  simp only [List.countP_singleton]
  rw [if_neg (by simpa using h)]
  rfl

theorem lt_nextCol {D : List (Nat × Nat)} (hD : D.Pairwise lexLt) {d : Nat × Nat} (hd : d ∈ D) :
    d.1 < nextCol (D.getLast?.map Prod.fst) := by
  cases h : D.getLast? with
  | none => rw [List.getLast?_eq_none_iff] at h; subst h; simp at hd
  | some e =>
    simp only [Option.map_some, nextCol]
    rcases le_getLast hD h hd with rfl | h'
    · omega
    · unfold lexLt at h'; omega

theorem compress_step {ncols : Nat} {pre : List (Nat × Nat × T)} {st : CompressState T} {D : List (Nat × Nat)} {t : Nat × Nat × T}
    (h : Compressing ncols pre st D) (hsorted : ∀ t' ∈ pre, tripletPos t' = tripletPos t ∨ lexLt (tripletPos t') (tripletPos t))
    (hcol : t.2.1 < ncols) : ∃ st' D', compressTriple st t = .ok st' ∧ Compressing ncols (pre ++ [t]) st' D' := by
  by_cases hsame : some t.1 = st.prevRow ∧ some t.2.1 = st.prevCol
  · have hl : D.getLast? = some (tripletPos t) := by
      have h1 := hsame.1.trans h.row
      have h2 := hsame.2.trans h.col
      cases hd : D.getLast? with
      | none => rw [hd] at h1; simp at h1
      | some d =>
        rw [hd] at h1 h2
        simp only [Option.map_some, Option.some.injEq] at h1 h2
        rw [tripletPos, h1, h2]
    obtain ⟨D₀, hD₀⟩ := List.getLast?_eq_some_iff.1 hl
    have hlast : D[D₀.length]? = some (tripletPos t) := by rw [hD₀]; simp
    have hv := h.sums _ _ hlast
    have hlen : st.values.length = D₀.length + 1 := by rw [h.values, hD₀]; simp
    obtain ⟨t', ht', htp⟩ := (h.mem _).1 (List.mem_of_getElem? hlast)
    obtain ⟨sum, hsum⟩ := sumAt_isSome ht' htp
    have hvl : st.values.getLast? = some sum := by
      rw [List.getLast?_eq_getElem?, hlen, ← hsum]
      exact hv
    refine ⟨{ st with values := st.values.dropLast ++ [sum + t.2.2], prevRow := some t.1, prevCol := some t.2.1 },
      D, ?_, ?_⟩
    · rw [compressTriple, if_pos hsame, hvl]
      rfl
    · refine ⟨h.rows, ?_, h.sorted, ?_, ?_, h.len, ?_, ?_, ?_⟩
      · simp [hlen, hD₀]
      · rw [hl]; rfl
      · rw [hl]; rfl
      · intro c hc
        apply h.pointers c
        rw [← hsame.2]
        exact hc
      · intro k
        rw [h.mem k]
        constructor
        · rintro ⟨t', h1, h2⟩
          exact ⟨t', by simp [h1], h2⟩
        · rintro ⟨t', h1, h2⟩
          rcases List.mem_append.1 h1 with h1 | h1
          · exact ⟨t', h1, h2⟩
          · rw [List.mem_singleton] at h1
            subst h1
            rw [← h.mem k, ← h2]
            exact List.mem_of_getElem? hlast
      · intro p k hp
        have hpl : p < D₀.length + 1 := by
          have := (List.getElem?_eq_some_iff.1 hp).1
          rw [hD₀] at this
          simpa using this
        rw [sumAt_append]
        by_cases hpe : p = D₀.length
        · subst hpe
          rw [hlast] at hp
          rw [if_pos (Option.some.inj hp), ← Option.some.inj hp, hsum]
          simp [hlen, addTo]
        · have hpk : tripletPos t ≠ k := by
            rintro rfl
            have hs := h.sorted
            rw [hD₀, List.pairwise_append] at hs
            rw [hD₀, List.getElem?_append_left (by omega)] at hp
            exact lexLt_irrefl (hs.2.2 _ (List.mem_of_getElem? hp) _ (by simp))
          rw [if_neg hpk, ← h.sums p k hp, List.getElem?_append_left (by simp; omega), List.getElem?_dropLast]
          rw [if_pos (by omega)]
  · -- a new entry
    have hlt : ∀ d ∈ D, lexLt d (tripletPos t) := by
      intro d hd
      have hle : ∀ d ∈ D, d = tripletPos t ∨ lexLt d (tripletPos t) := by
        intro d hd
        obtain ⟨t', h1, h2⟩ := (h.mem d).1 hd
        rw [← h2]
        exact hsorted t' h1
      cases hl : D.getLast? with
      | none => rw [List.getLast?_eq_none_iff] at hl; subst hl; simp at hd
      | some e =>
        have he : e ≠ tripletPos t := by
          rintro rfl
          apply hsame
          rw [h.row, h.col, hl]
          exact ⟨rfl, rfl⟩
        have he' := (hle e (List.mem_of_getLast? hl)).resolve_left he
        rcases le_getLast h.sorted hl hd with rfl | h'
        · exact he'
        · exact lexLt_trans h' he'
    have hps : ∃ ps, (if some t.2.1 ≠ st.prevCol then fillPointers st.values.length (nextCol st.prevCol) t.2.1 st.columnPointers
        else pure st.columnPointers) = .ok ps ∧ ps.length = ncols + 1 ∧ ∀ c, c ≤ t.2.1 → ps[c]? = some (before D c) := by
      by_cases hc : some t.2.1 = st.prevCol
      · rw [if_neg (by simpa using hc)]
        refine ⟨_, rfl, h.len, ?_⟩
        intro c hc'
        apply h.pointers
        rw [← hc]
        simp only [nextCol]
        omega
      · rw [if_pos hc]
        obtain ⟨ps, h1, h2, h3, h4⟩ := fillPointers_spec (value := st.values.length) (start := nextCol st.prevCol) (stop := t.2.1)
          (ps := st.columnPointers) (by rw [h.len]; omega)
        refine ⟨ps, h1, by rw [h2, h.len], ?_⟩
        intro c hct
        by_cases hcn : c < nextCol st.prevCol
        · rw [h4 c hcn, h.pointers c hcn]
        · rw [h3 c (by omega) hct, h.values, before_eq_length]
          intro d hd
          have := lt_nextCol h.sorted hd
          rw [← h.col] at this
          omega
    obtain ⟨ps, hp1, hp2, hp3⟩ := hps
    refine ⟨⟨ps, st.rowIndices ++ [t.1], st.values ++ [t.2.2], some t.1, some t.2.1⟩, D ++ [tripletPos t], ?_, ?_⟩
    · rw [compressTriple, if_neg hsame]
      by_cases hc : some t.2.1 ≠ st.prevCol
      · rw [if_pos hc] at hp1
        simp only [if_pos hc, hp1]
        rfl
      · rw [if_neg hc] at hp1
        simp only [if_neg hc, hp1]
        rfl
    · refine ⟨?_, ?_, ?_, ?_, ?_, hp2, ?_, ?_, ?_⟩
      · simp [h.rows, tripletPos]
      · simp [h.values]
      · rw [List.pairwise_append]
        refine ⟨h.sorted, by simp, ?_⟩
        intro d hd e he
        rw [List.mem_singleton] at he
        subst he
        exact hlt d hd
      · simp [tripletPos]
      · simp [tripletPos]
      · intro c hc
        simp only [nextCol] at hc
        rw [before_append_singleton (by show c ≤ t.2.1; omega)]
        exact hp3 c (by omega)
      · intro k
        rw [List.mem_append, h.mem k, List.mem_singleton]
        constructor
        · rintro (⟨t', h1, h2⟩ | rfl)
          · exact ⟨t', by simp [h1], h2⟩
          · exact ⟨t, by simp, rfl⟩
        · rintro ⟨t', h1, h2⟩
          rcases List.mem_append.1 h1 with h1 | h1
          · exact Or.inl ⟨t', h1, h2⟩
          · rw [List.mem_singleton] at h1
            subst h1
            exact Or.inr h2.symm
      · intro p k hp
        rw [sumAt_append]
        by_cases hpl : p < D.length
        · rw [List.getElem?_append_left hpl] at hp
          rw [if_neg, List.getElem?_append_left (by rw [h.values]; exact hpl), h.sums p k hp]
          rintro rfl
          exact lexLt_irrefl (hlt _ (List.mem_of_getElem? hp))
        · have hpe : p = D.length := by
            have := (List.getElem?_eq_some_iff.1 hp).1
            simp at this
            omega
          subst hpe
          rw [List.getElem?_append_right (le_refl _)] at hp
          simp only [Nat.sub_self, List.getElem?_cons_zero, Option.some.injEq] at hp
          subst hp
          rw [if_pos rfl, sumAt_eq_none, ← h.values]
          · simp [addTo]
          · intro t' ht' he
            exact lexLt_irrefl (hlt _ ((h.mem _).2 ⟨t', ht', he⟩))

theorem fromTripletMat_spec {sort : SortByKey} (hsort : Sorts sort) {a : TripletMat T} (ha : TripletsOk a) :
    ∃ m D L, SparseColMat.fromTripletMat sort a = .ok m ∧ L.Perm a.triplets ∧ PositionsOk a.nrows a.ncols D ∧ m.structure' = structOf a.nrows a.ncols D ∧
      m.values.length = D.length ∧ (∀ k, k ∈ D ↔ ∃ t ∈ a.triplets, tripletPos t = k) ∧
      ∀ (p : Nat) (k : Nat × Nat), D[p]? = some k → m.values[p]? = sumAt L k := by
  have hlen : a.triplets.length = a.values.length := by
    simp [TripletMat.triplets, ha.rows, ha.cols]
  set indices := sort (tripletKey a) (List.range a.values.length) with hind
  have hperm := (hsort (tripletKey a) (List.range a.values.length)).1
  have hpw := (hsort (tripletKey a) (List.range a.values.length)).2
  rw [← hind] at hperm hpw
  set L := indices.filterMap (fun i => a.triplets[i]?) with hL
  have hLperm : L.Perm a.triplets := by
    have h1 : L.Perm ((List.range a.values.length).filterMap (fun i => a.triplets[i]?)) := hperm.filterMap _
    have h2 : (List.range a.values.length).filterMap (fun i => a.triplets[i]?) = a.triplets := by
      rw [← hlen]
      have : ∀ l : List (Nat × Nat × T), (List.range l.length).filterMap (fun i => l[i]?) = l := by
        intro l
        induction l using List.reverseRecOn with
        | nil => rfl
        | append_singleton l x ih =>
          rw [List.length_append, List.length_singleton, List.range_succ, List.filterMap_append]
          congr 1
          · conv_rhs => rw [← ih]
            apply List.filterMap_congr
            intro i hi
            rw [List.getElem?_append_left (List.mem_range.1 hi)]
          · simp
      exact this _
    rw [h2] at h1
    exact h1
  have hLsorted : L.Pairwise (fun t t' => tripletPos t = tripletPos t' ∨ lexLt (tripletPos t) (tripletPos t')) := by
    rw [hL, List.pairwise_filterMap]
    refine hpw.imp ?_
    intro i j hij t ht t' ht'
    obtain ⟨h1, h2, -⟩ := triplets_getElem?.1 ht
    obtain ⟨h3, h4, -⟩ := triplets_getElem?.1 ht'
    simp only [tripletKey, List.getD_eq_getElem?_getD, h1, h2, h3, h4, Option.getD_some] at hij
    unfold lexLt
    simp only [tripletPos, Prod.mk.injEq]
    omega
  have hLcol : ∀ t ∈ L, t.2.1 < a.ncols ∧ t.1 < a.nrows := by
    intro t ht
    obtain ⟨i, hi⟩ := List.mem_iff_getElem?.1 ((hLperm.mem_iff).1 ht)
    obtain ⟨h1, h2, -⟩ := triplets_getElem?.1 hi
    exact ⟨ha.colBound _ (List.mem_of_getElem? h2), ha.rowBound _ (List.mem_of_getElem? h1)⟩
  have hfold := compressStep_foldlM (a := a) indices (by
    intro i hi
    rw [hlen]
    exact List.mem_range.1 ((hperm.mem_iff).1 hi)) ⟨List.replicate (a.ncols + 1) 0, [], [], none, none⟩
  rw [← hL] at hfold
  obtain ⟨st, h1, D, h2⟩ := foldlM_prefix (fun pre st => ∃ D, Compressing a.ncols pre st D) compressTriple L
    ⟨List.replicate (a.ncols + 1) 0, [], [], none, none⟩
    ⟨[], rfl, rfl, List.Pairwise.nil, rfl, rfl, by simp, by simp [nextCol], by simp, by simp⟩ (by
      rintro pre t post st hl ⟨D, hD⟩
      obtain ⟨st', D', e1, e2⟩ := compress_step hD (by
        intro t' ht'
        rw [hl, List.pairwise_append] at hLsorted
        exact hLsorted.2.2 t' ht' t (by simp)) (hLcol t (by rw [hl]; simp)).1
      exact ⟨st', e1, D', e2⟩)
  obtain ⟨ps, p1, p2, p3, p4⟩ := fillPointers_spec (value := st.values.length) (start := nextCol st.prevCol) (stop := a.ncols)
    (ps := st.columnPointers) (by rw [h2.len]; omega)
  have hposmem : ∀ k, k ∈ D ↔ ∃ t ∈ a.triplets, tripletPos t = k := by
    intro k
    rw [h2.mem k]
    constructor
    · rintro ⟨t, e1, e2⟩
      exact ⟨t, hLperm.mem_iff.1 e1, e2⟩
    · rintro ⟨t, e1, e2⟩
      exact ⟨t, hLperm.mem_iff.2 e1, e2⟩
  have hpos : PositionsOk a.nrows a.ncols D := ⟨h2.sorted, by
    intro d hd
    obtain ⟨t, e1, rfl⟩ := (h2.mem d).1 hd
    exact hLcol t e1⟩
  refine ⟨⟨⟨a.nrows, a.ncols, st.rowIndices, ps⟩, st.values⟩, D, L, ?_, hLperm, hpos, ?_, h2.values, hposmem, h2.sums⟩
  · rw [SparseColMat.fromTripletMat, ← hind, hfold, h1]
    simp only [ok_bind, p1]
    rfl
  · simp only [structOf, SparseStructure.mk.injEq, true_and]
    refine ⟨h2.rows, ?_⟩
    apply List.ext_getElem?
    intro c
    by_cases hc : c ≤ a.ncols
    · rw [List.getElem?_map, List.getElem?_range (by omega), Option.map_some]
      by_cases hcn : c < nextCol st.prevCol
      · rw [p4 c hcn, h2.pointers c hcn]
      · rw [p3 c (by omega) hc, h2.values, before_eq_length]
        intro d hd
        have := lt_nextCol h2.sorted hd
        rw [← h2.col] at this
        omega
    · rw [List.getElem?_eq_none (by rw [p2, h2.len]; omega), List.getElem?_eq_none (by simp; omega)]

end

end Fiksi
