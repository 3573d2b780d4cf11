import Verif.Proofs.ColamdRows
import Verif.Proofs.Real
import Mathlib.Tactic.IntervalCases
/-!
# C45: the row form and the column form of `init_rows_cols`
-/
namespace Fiksi
open Spec

/-- C45 (partial: sorted columns): on arrays that pass the checks and whose columns are sorted without repetitions, `init_rows_cols` succeeds,
keeps the columns where they are, and builds a row form behind them: the rows follow each other from `p[n]` on, and the cells of each row list
exactly the columns that contain it, in increasing order. -/
theorem C45_sorted_partial {a p : Int → Int} {m n : Int} (h : ColumnForm a p m n) (hsort : SortedColumns a p n) {b : ColamdBuffers}
    (ha : b.a.get = a) (hp : b.head.get = p) (hpn : n < b.head.size) (hr : m < b.rows.size) (hc : n ≤ b.cols.size)
    (hsize : 2 * p n ≤ b.a.size) (hi32 : p n < 2 ^ 31) :
    ∃ b', initRowsCols m n b ColamdStats.start = .ok (.ok (b', ColamdStats.start)) ∧
      (∀ c, 0 ≤ c → c < n → (b'.cols.get c).start = p c ∧ (b'.cols.get c).length = p (c + 1) - p c) ∧
      (∀ x, x < p n → b'.a.get x = a x) ∧
      (∀ r, 0 ≤ r → r < m → (b'.rows.get r).degree = (b'.rows.get r).length ∧
        Lists b'.a.get (b'.rows.get r).start (b'.rows.get r).length (fun c => (0 ≤ c ∧ c < n) ∧ Entry a p r c)) ∧
      (0 < m → (b'.rows.get 0).start = p n) ∧
      (∀ r, 0 ≤ r → r + 1 < m → (b'.rows.get (r + 1)).start = (b'.rows.get r).start + (b'.rows.get r).length) ∧
      ∀ r, 0 ≤ r → r < m → (b'.rows.get r).start + (b'.rows.get r).length ≤ 2 * p n := by
  obtain ⟨b', h1, _, _, _, _, h2, h3, h4, h5⟩ := initRowsCols_of h hsort ha hp hpn (by omega) (by have := h.rows; omega) hc hsize hi32
    (stats := ColamdStats.start) (by decide)
  refine ⟨b', h1, fun c c0 cn => by rw [h3 c c0 cn]; exact ⟨rfl, rfl⟩, h4, fun r r0 rm => ?_, fun m0 => ?_, fun r r0 rm => ?_, fun r r0 rm => ?_⟩
  · rw [h2 r r0 rm]
    exact ⟨rfl, lists_of_slots h.cols fun c c0 cn he => h5 r c r0 rm c0 cn he⟩
  · rw [h2 0 (le_refl _) m0, rowStart_zero]
  · rw [h2 r r0 (by omega), h2 (r + 1) (by omega) rm, rowStart_succ r0]
  · rw [h2 r r0 rm]
    exact (rowStart_disjoint r0 rm).trans h.rowStart_le

/-- C45 (partial: the rows, for unsorted columns too): the row form lists the columns of each row in increasing order without repetitions, and
the lengths of the rows and columns count each entry once, whether or not the columns are sorted. -/
theorem C45_rows_partial {a p : Int → Int} {m n : Int} (h : ColumnForm a p m n) {rows0 : Mem ColamdRow} {cols0 : Mem ColamdCol} {am pm : Mem Int}
    (ha : am.get = a) (hp : pm.get = p) (hpn : n < pm.size) (hr : m < rows0.size) (hc : n ≤ cols0.size) (hsize : 2 * p n ≤ am.size)
    {stats : ColamdStats} (hst : stats.status ≠ 1)
    (hlen : ∀ c, 0 ≤ c → c < n → (cols0.get c).length = p (c + 1) - p c)
    (hrows : ∀ r, 0 ≤ r → r < m → (rows0.get r).length = 0 ∧ (rows0.get r).mark = -1) :
    ∃ s rows' a', foldC (scanColumn m am pm) (span 0 n.toNat) ⟨rows0, cols0, stats, -1⟩ = .ok (.ok s) ∧
      (s.stats.status = 1 ↔ ¬ SortedColumns a p n) ∧
      (∀ c, 0 ≤ c → c < n → ((s.cols.get c).length : Int) = ((Finset.Ico 0 m).filter (fun r => r ∈ (Finset.Ico (p c) (p (c + 1))).image a)).card) ∧
      rowForm m n (s.stats.status == 1) s.rows am pm = .ok (rows', a') ∧
      (∀ x, x < p n → a'.get x = a x) ∧
      ∀ r, 0 ≤ r → r < m → Lists a'.get (rows'.get r).start (rows'.get r).length (fun c => (0 ≤ c ∧ c < n) ∧ Entry a p r c) := by
  have hpn0 := h.nonneg h.cols (le_refl n)
  obtain ⟨s, h1, h2, h3, h4, h5, h6, h7, -⟩ := scan_of h ha hp (by omega) hpn (rows0 := rows0) (cols0 := cols0) (stats0 := stats) (by omega) hc hlen hrows
  have hiff : s.stats.status = 1 ↔ ¬ SortedColumns a p n := by
    constructor
    · intro h8 h9
      rw [h7 h9] at h8
      exact hst h8
    · intro h8
      rcases h6 with h6 | ⟨_, h6⟩
      · exact h6
      · exact absurd h6 h8
  obtain ⟨rows', a', k1, k2, k3, k4, k5, k6⟩ := rowForm_of h (jumbled := s.stats.status == 1) (rows := s.rows) (am := am) (pm := pm)
    (fun x _ => by rw [ha]) hp hpn (fun hf => by
      by_contra h8
      rw [beq_eq_false_iff_ne] at hf
      exact hf (hiff.2 h8)) (by omega) (by have := h.rows; omega) (by omega) h4
  refine ⟨s, rows', a', h1, hiff, fun c c0 cn => ?_, k1, k5, fun r r0 rm => ?_⟩
  · rw [h5 c c0 cn]
    simp only
    congr 2
    ext r
    simp only [Finset.mem_filter, Finset.mem_Ico]
    constructor
    · intro hr'
      refine ⟨?_, hr'⟩
      rw [colRows, mem_seenRows] at hr'
      obtain ⟨j, hj, rfl⟩ := hr'
      exact (h.entry c0 cn hj.1 hj.2).2
    · exact fun hr' => hr'.2
  · rw [k4 r r0 rm]
    exact lists_of_slots h.cols fun c c0 cn he => k6 r c r0 rm c0 cn he

/-! ## The re-created columns are wrong -/

/-- Four rows, four columns, with the entries 2, 1 in column 0 and 0, 1, 3 in column 3. Only column 0 is unsorted. -/
def jumbledRows : List Int := [2, 1, 0, 1, 3]
def jumbledPointers : List Int := [0, 2, 2, 2, 5]

/-- The buffers before `init_rows_cols`, with a workspace of the recommended length. -/
def jumbledBuffer : List Int := jumbledRows ++ List.replicate 60 0

example : colamdRecommended 5 4 4 = some jumbledBuffer.length := by decide +kernel

example : ColumnForm (Mem.ofList jumbledBuffer 0).get (Mem.ofList jumbledPointers 0).get 4 4 where
  rows := by decide
  cols := by decide
  first := rfl
  mono := by intro c h0 h1; interval_cases c <;> decide +kernel
  bound := by
    intro i h0 h1
    have : (Mem.ofList jumbledPointers 0).get 4 = 5 := by decide +kernel
    rw [this] at h1
    interval_cases i <;> decide +kernel

/-- The column form after `init_rows_cols`. -/
def columnsAfter (m n : Int) (a p : List Int) : Option (List (List Int)) :=
  match colamdChecks m n a p with
  | .ok (.ok (cs, rs, _)) =>
      match initRowsCols m n (splitBuffer a p cs rs) ColamdStats.start with
      | .ok (.ok (b, _)) => some ((List.range n.toNat).map fun c : Nat => (span (b.cols.get c).start (b.cols.get c).length.toNat).map b.a.get)
      | _ => none
  | _ => none

/-- C45 is false: after `init_rows_cols` column 3 of the example is `[1, 3, 3]` instead of `[0, 1, 3]`. The loop that re-creates the columns
runs over `A[start]..A[start] + length` instead of `start..start + length`. -/
theorem C45_jumbled_wrong : columnsAfter 4 4 jumbledBuffer jumbledPointers = some [[1, 2], [], [], [1, 3, 3]] := by decide +kernel

/-- The example with the dense thresholds that `10 * sqrt(4)` gives. -/
theorem jumbled_order : (do
    let (b, _) ← (initRowsCols 4 4 (splitBuffer jumbledBuffer jumbledPointers 30 20) ColamdStats.start).bind fun
      | .ok r => .ok r
      | .error _ => .error .unreachable
    let (b, _, nCol2, maxDeg) ← initScoring 4 4 20 20 b
    findOrdering 4 4 15 b nCol2 maxDeg 10 false).map (fun _ => ()) = .error .indexOutOfBounds := by decide +kernel

/-- On the example, without aggressive absorption, the raw pointers of `find_ordering` leave their buffer: calling the safe function
`colamd` with a workspace of the recommended length is undefined behaviour. -/
theorem C45_jumbled_undefined (cast : ℝ → Int) (hc : cast 20 = 20) :
    colamd cast ⟨10, 10, false⟩ 4 4 jumbledBuffer jumbledPointers = .error .indexOutOfBounds := by
  have hs : Real.sqrt 4 = 2 := by
    rw [show (4 : ℝ) = 2 ^ 2 by norm_num]
    exact Real.sqrt_sq (by norm_num)
  have hd : denseCount cast (10 : ℝ) 4 = 20 := by
    simp only [denseCount, FloatOps.ofNat, FloatOps.sqrt, FloatOps.ltB, show Int.toNat 4 = 4 from rfl, Nat.cast_ofNat, hs]
    norm_num [hc]
  have h1 : denseRowCount cast (⟨10, 10, false⟩ : ColamdOptions ℝ) 4 = 20 := by
    simp only [denseRowCount, FloatOps.ltB, hd]
    norm_num
  have h2 : denseColCount cast (⟨10, 10, false⟩ : ColamdOptions ℝ) 4 4 = 20 := by
    simp only [denseColCount, FloatOps.ltB, lt_irrefl, if_false, hd]
    norm_num
  have hchecks : colamdChecks 4 4 jumbledBuffer jumbledPointers = .ok (.ok (30, 20, 5)) := by decide +kernel
  unfold colamd
  rw [show assertPointers 4 jumbledPointers = .ok () by decide +kernel, ok_bind]
  unfold colamdMain
  rw [hchecks, ok_bind]
  simp only
  unfold colamdOrder
  have hj := jumbled_order
  rw [show asI32 (jumbledBuffer.length - (30 + 20)) = 15 by decide +kernel, show mulI32 2 5 = .ok 10 by decide +kernel, h1, h2]
  cases hi : initRowsCols 4 4 (splitBuffer jumbledBuffer jumbledPointers 30 20) ColamdStats.start with
  | error e => rw [hi] at hj; simpa [bind, Except.bind, Except.map] using hj
  | ok r =>
    rw [hi] at hj
    cases r with
    | error e => exact absurd hj (by simp [bind, Except.bind, Except.map])
    | ok r =>
      obtain ⟨b, st⟩ := r
      rw [ok_bind]
      simp only [Except.bind, ok_bind] at hj ⊢
      cases hs : initScoring 4 4 20 20 b with
      | error e => rw [hs] at hj; simpa [bind, Except.bind, Except.map] using hj
      | ok r =>
        obtain ⟨b', n2, c2, d⟩ := r
        rw [hs] at hj
        simp only [ok_bind] at hj ⊢
        cases hf : findOrdering 4 4 15 b' c2 d 10 false with
        | error e => rw [hf] at hj; simpa [bind, Except.bind, Except.map] using hj
        | ok r => rw [hf] at hj; simp [Except.map] at hj

end Fiksi
