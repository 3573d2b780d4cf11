import Verif.Props.ColamdOrdering
/-!
# C80: what the status says about the order of the input
-/
namespace Fiksi
open Spec

variable {F : Type} [Add F] [Sub F] [Mul F] [Div F] [Neg F] [Zero F] [One F] [FloatOps F]

/-- No entry is jumbled if and only if every column is increasing. -/
theorem jumbled_eq_nil {a p : Int → Int} {n : Int} : jumbled a p n = [] ↔ SortedColumns a p n := by
  have key : jumbled a p n = [] ↔ ∀ c, 0 ≤ c → c < n → ∀ i, p c ≤ i → i < p (c + 1) → jumbledAt a p c i = false := by
    unfold jumbled
    simp only [List.flatMap_eq_nil_iff, List.map_eq_nil_iff, List.filter_eq_nil_iff, mem_span_iff, Bool.not_eq_true]
    constructor
    · exact fun h c c0 cn i h1 h2 => h c (by omega) i (by omega)
    · exact fun h c hc i hi => h c (by omega) (by omega) i (by omega) (by omega)
  rw [key]
  constructor
  · intro h c c0 cn i j hi hij hj
    have step : ∀ k, p c ≤ k → k + 1 < p (c + 1) → a k < a (k + 1) := by
      intro k hk hk'
      have := h c c0 cn (k + 1) (by omega) hk'
      rw [← Bool.not_eq_true, jumbledAt_iff (by omega), add_sub_cancel_right] at this
      push Not at this
      exact this.1 (by omega)
    obtain ⟨d, rfl⟩ : ∃ d : Nat, j = i + 1 + d := ⟨(j - i - 1).toNat, by omega⟩
    clear hij
    induction d with
    | zero => simpa using step i hi (by simpa using hj)
    | succ d ih =>
      have h1 := ih (by omega)
      have h2 := step (i + 1 + d) (by omega) (by push_cast at hj; omega)
      push_cast
      rw [← add_assoc]
      omega
  · intro h c c0 cn i h1 h2
    rw [← Bool.not_eq_true, jumbledAt_iff h1, mem_seenRows]
    rintro (⟨h3, h4⟩ | ⟨j, hj, e⟩)
    · have := h c c0 cn (i - 1) i (by omega) (by omega) h2
      omega
    · have := h c c0 cn j i hj.1 hj.2 h2
      omega

theorem jumbled_congr {a a' p : Int → Int} {m n : Int} (h : ColumnForm a p m n) (he : ∀ i, 0 ≤ i → i < p n → a' i = a i) :
    jumbled a' p n = jumbled a p n := by
  unfold jumbled
  refine List.flatMap_congr fun c hc => ?_
  rw [mem_span_iff] at hc
  have hx : ∀ i, i ∈ span (p c) (p (c + 1) - p c).toNat → a' i = a i := fun i hi => by
    rw [mem_span_iff] at hi
    have := (h.entry (by omega) (by omega) hi.1 (by omega)).1
    exact he i this.1 this.2
  have hf : (span (p c) (p (c + 1) - p c).toNat).filter (jumbledAt a' p c) = (span (p c) (p (c + 1) - p c).toNat).filter (jumbledAt a p c) := by
    refine List.filter_congr fun i hi => ?_
    unfold jumbledAt
    rw [Bool.eq_iff_iff, List.any_eq_true, List.any_eq_true]
    refine exists_congr fun j => and_congr_right fun hj => ?_
    rw [mem_span_iff] at hi hj
    rw [hx i (mem_span_iff.2 hi), hx j (mem_span_iff.2 (by omega))]
  rw [hf]
  exact List.map_congr_left fun i hi => by rw [hx i (List.mem_filter.1 hi).1]

/-- The statistics that `init_rows_cols` returns. -/
theorem initRowsCols_report {a p : Int → Int} {m n : Int} (h : ColumnForm a p m n) {b b' : ColamdBuffers} {stats st : ColamdStats}
    (ha : b.a.get = a) (hp : b.head.get = p) (hpn : n < b.head.size) (hr : m ≤ b.rows.size) (hc : n ≤ b.cols.size)
    (hsize : p n ≤ b.a.size) (hi32 : p n < 2 ^ 31) (e : initRowsCols m n b stats = .ok (.ok (b', st))) :
    st = reportJumbled { stats with info3 := 0 } (jumbled a p n) := by
  have n0 := h.cols
  have m0 := h.rows
  unfold initRowsCols at e
  rw [if_neg (by omega)] at e
  obtain ⟨cols, h1, h2, h3⟩ := initColumns_of stats b.head b.cols n.toNat (by omega) (by omega)
    (fun c c0 c1 => by rw [hp]; exact h.mono c c0 (by omega))
    (fun c c0 c1 => by
      rw [hp]
      have e1 := h.mono' (show 0 ≤ c + 1 by omega) (show c + 1 ≤ n by omega) (le_refl n)
      have e2 := h.nonneg c0 (by omega)
      omega)
  rw [h1, ok_bind] at e
  simp only at e
  obtain ⟨rows, h4, h5, h6⟩ := initRows_of b.rows m.toNat (by omega) (fun r => { r with length := 0, mark := -1 })
  rw [h4, ok_bind] at e
  obtain ⟨s, g1, -, -, -, -, -, -, g7⟩ := scan_of h ha hp hsize hpn (rows0 := rows) (cols0 := cols) (stats0 := { stats with info3 := 0 })
    (by omega) (by omega) (fun c c0 c1 => by rw [h3 c, if_pos (by omega), hp])
    (fun r r0 r1 => by rw [h6 r, if_pos (by omega)]; exact ⟨rfl, rfl⟩)
  rw [g1, ok_bind] at e
  simp only at e
  obtain ⟨x, _, e⟩ := bind_eq_ok.1 e
  split at e
  · obtain ⟨_, _, e⟩ := bind_eq_ok.1 e
    cases e; exact g7
  · cases e; exact g7

/-- The status for a list of jumbled entries: `Ok` if there is none, and otherwise the column and the row of the last one and their number. -/
def Spec.statusOf (l : List (Int × Int)) : ColamdStatus :=
  match l.getLast? with
  | none => .ok
  | some e => .jumbled e.1 e.2 l.length

/-- C80, for `colamd`: whenever it returns `Ok`, the status is `Ok` if and only if every column is increasing; otherwise it names the column
and the row of the last entry that is not larger than the one before it or that occurred before, and the number of such entries. -/
theorem C80_colamd_status_partial (cast : F → Int) (options : ColamdOptions F) {nRow nCol nnz : Int} {a p : List Int}
    (h : ColumnForm (Mem.ofList a 0).get (Mem.ofList p 0).get nRow nCol)
    (hp : (p.length : Int) = nCol + 1) (hnnz : (Mem.ofList p 0).get nCol = nnz) (hr : nRow < 2 ^ 31) (hc : nCol + 1 < 2 ^ 31) (hz : nnz < 2 ^ 31)
    {statistics : ColamdStatistics} {r : Option (List Int)} (e : colamd cast options nRow nCol a p = .ok (.ok statistics, r)) :
    statistics.status = statusOf (jumbled (Mem.ofList a 0).get (Mem.ofList p 0).get nCol) ∧
      (statistics.status = .ok ↔ SortedColumns (Mem.ofList a 0).get (Mem.ofList p 0).get nCol) := by
  have n0 := h.cols
  have m0 := h.rows
  have z0 : 0 ≤ nnz := hnnz ▸ h.nonneg h.cols (le_refl _)
  have hget : ∀ i : Nat, (i : Int) ≤ nCol → p[i]? = some ((Mem.ofList p 0).get i) := fun i hi => by
    rw [Mem.ofList_get, List.getD_eq_getElem?_getD, List.getElem?_eq_getElem (by omega)]
    rfl
  have hlast : p[nCol.toNat]? = some nnz := by
    rw [hget _ (by omega), show ((nCol.toNat : Nat) : Int) = nCol by omega, hnnz]
  have hfirst : p[0]? = some 0 := by
    rw [hget 0 (by omega), Nat.cast_zero, h.first]
  suffices hmain : statistics.status = statusOf (jumbled (Mem.ofList a 0).get (Mem.ofList p 0).get nCol) by
    refine ⟨hmain, ?_⟩
    rw [hmain, ← jumbled_eq_nil, statusOf]
    cases hl : (jumbled (Mem.ofList a 0).get (Mem.ofList p 0).get nCol).getLast? with
    | none => simpa using hl
    | some e =>
      simp only [reduceCtorEq, false_iff]
      intro hn
      rw [hn] at hl
      simp at hl
  unfold colamd at e
  rw [assertPointers_of n0 hc hp, ok_bind] at e
  obtain ⟨⟨stats, r1⟩, e1, e⟩ := bind_eq_ok.1 e
  obtain ⟨result, e2, e⟩ := bind_eq_ok.1 e
  cases e
  unfold colamdMain at e1
  simp only at e2
  by_cases hlen : a.length < 2 * nnz.toNat + nCol.toNat + 6 * (nCol.toNat + 1) + 4 * (nRow.toNat + 1)
  · rw [colamdChecks_small m0 hr n0 hc hlast z0 hz hfirst hlen, ok_bind] at e1
    cases e1
    simp [statsToResult] at e2
  rw [colamdChecks_of m0 hr n0 hc hlast z0 hz hfirst (by omega), ok_bind] at e1
  simp only at e1
  unfold colamdOrder at e1
  obtain ⟨s1, s2, s3, s4⟩ := splitBuffer_sizes a p nCol.toNat nRow.toNat
  set b := splitBuffer a p (6 * (nCol.toNat + 1)) (4 * (nRow.toNat + 1)) with hb
  have hhead : b.head.get = (Mem.ofList p 0).get := rfl
  have hA : ∀ i, 0 ≤ i → i < (Mem.ofList p 0).get nCol → b.a.get i = (Mem.ofList a 0).get i := fun i i0 i1 => by
    rw [show i = ((i.toNat : Nat) : Int) by omega, hb, splitBuffer_a _ _ _ _ _ (by omega), Mem.ofList_get]
  obtain ⟨res, e3, e1⟩ := bind_eq_ok.1 e1
  cases res with
  | error st =>
    cases e1
    have := (initRowsCols_status (Or.inl rfl)).2 _ e3
    unfold statsToResult at e2
    rcases this with hh | hh <;> simp [hh] at e2
  | ok x =>
    obtain ⟨b', st⟩ := x
    have hst := initRowsCols_report (h.congr hA) rfl hhead (by omega) (by omega) (by omega) (by omega) (by omega) e3
    rw [jumbled_congr h hA] at hst
    simp only [bind_eq_ok] at e1
    obtain ⟨⟨b2, nRow2, n2, maxDeg⟩, -, pf, -, ⟨b3, garbage⟩, -, p', -, d1, -, d2, -, e1⟩ := e1
    cases e1
    unfold statsToResult at e2
    subst hst
    unfold reportJumbled statusOf at *
    cases hl : (jumbled (Mem.ofList a 0).get (Mem.ofList p 0).get nCol).getLast? with
    | none =>
      rw [hl] at e2
      simp [ColamdStats.start] at e2
      rw [← e2]
    | some x =>
      rw [hl] at e2
      simp at e2
      rw [← e2]

/-- C80, for `symamd`: the status is `Ok` for every matrix that passes the checks, whether or not its columns are increasing. -/
theorem C80_symamd_always_ok (cast : F → Int) (options : ColamdOptions F) {n nnz : Int} {l q perm : List Int}
    (h : ColumnForm (Mem.ofList l 0).get (Mem.ofList q 0).get n n)
    (hn : n < 2 ^ 27) (hq : q.length = n.toNat + 1) (hperm : perm.length = n.toNat + 1) (hnnz : (Mem.ofList q 0).get n = nnz)
    (hlen : nnz ≤ l.length) (hi32 : nnz < 2 ^ 27) {statistics : ColamdStatistics} {r : Option (List Int)}
    (e : symamd cast options n l q perm = .ok (.ok statistics, r)) : statistics.status = .ok := by
  obtain ⟨st, perm', e1, -, hst⟩ := C56_symamd_permutation cast options h hn hq hperm hnnz hlen hi32
  rw [e] at e1
  cases e1
  exact hst

/-- An unsorted symmetric matrix with a diagonal entry, an upper entry and a duplicate: `[2, 0, 2]`, `[1]`, `[1, 0]`. -/
def jumbledSymmetric : List Int := [2, 0, 2, 1, 1, 0]
def jumbledSymmetricPointers : List Int := [0, 3, 4, 6]

theorem jumbledSymmetric_form : ColumnForm (Mem.ofList jumbledSymmetric 0).get (Mem.ofList jumbledSymmetricPointers 0).get 3 3 where
  rows := by decide
  cols := by decide
  first := rfl
  mono := by intro c h0 h1; interval_cases c <;> decide +kernel
  bound := by
    intro i h0 h1
    have : (Mem.ofList jumbledSymmetricPointers 0).get 3 = 6 := by decide +kernel
    rw [this] at h1
    interval_cases i <;> decide +kernel

theorem jumbledSymmetric_entries :
    jumbled (Mem.ofList jumbledSymmetric 0).get (Mem.ofList jumbledSymmetricPointers 0).get 3 = [(0, 0), (0, 2), (2, 0)] := by decide +kernel

/-- C80 is false for `symamd`: on a matrix with three jumbled entries, which it skips or sorts, it reports that the matrix was sorted. The
status that its own scan finds is lost when it hands `colamd` the same statistics. -/
theorem C80_symamd_unreported (cast : F → Int) (options : ColamdOptions F) :
    ∃ (statistics : ColamdStatistics) (perm : List Int),
      symamd cast options 3 jumbledSymmetric jumbledSymmetricPointers [0, 0, 0, 0] = .ok (.ok statistics, some perm) ∧ statistics.status = .ok ∧
        statusOf (jumbled (Mem.ofList jumbledSymmetric 0).get (Mem.ofList jumbledSymmetricPointers 0).get 3) = .jumbled 2 0 3 := by
  obtain ⟨st, perm', e, -, hst⟩ := C56_symamd_permutation cast options (perm := [0, 0, 0, 0]) jumbledSymmetric_form (by norm_num) rfl rfl rfl
    (by decide +kernel) (by decide +kernel)
  exact ⟨st, _, e, hst, by rw [jumbledSymmetric_entries]; rfl⟩

/-- Integers in place of floats, for the concrete case. -/
local instance : FloatOps Int where
  sqrt x := Int.ofNat (Nat.sqrt x.toNat)
  atan2 x _ := x
  sin x := x
  cos x := x
  abs x := x.natAbs
  signum x := x.sign
  pi := 3
  ofNat n := n
  ltB a b := decide (a < b)
  eqB a b := decide (a = b)

/-- `colamd` succeeds on the matrix above and reports the three jumbled entries, the last of them in column 2 and row 0. -/
example : colamd (F := Int) id ⟨10, 10, true⟩ 3 3 (jumbledSymmetric ++ List.replicate 89 0) jumbledSymmetricPointers =
    .ok (.ok ⟨.jumbled 2 0 3, 0, 0, 0⟩, some [0, 2, 1, -1]) := by decide +kernel

end Fiksi
