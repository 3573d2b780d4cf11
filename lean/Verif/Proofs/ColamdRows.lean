import Verif.Proofs.ColamdChecks
import Verif.Spec.Colamd
import Mathlib.Combinatorics.Enumerative.DoubleCounting
import Mathlib.Algebra.Order.BigOperators.Group.Finset
/-! # The scan of the columns and the row form -/
namespace Fiksi
open Spec

variable {a p : Int → Int} {m n : Int}

/-- The rows among the entries of column `c` before position `i`. -/
def seenRows (a p : Int → Int) (c i : Int) : Finset Int := (Finset.Ico (p c) i).image a

/-- The rows of column `c`. -/
def colRows (a p : Int → Int) (c : Int) : Finset Int := seenRows a p c (p (c + 1))

/-- The columns below `x` that contain row `r`. -/
def rowCols (a p : Int → Int) (r x : Int) : Finset Int := (Finset.Ico 0 x).filter (fun c => r ∈ colRows a p c)

theorem mem_seenRows {c i r : Int} : r ∈ seenRows a p c i ↔ ∃ j, (p c ≤ j ∧ j < i) ∧ a j = r := by
  simp [seenRows]

theorem mem_colRows {c r : Int} : r ∈ colRows a p c ↔ Entry a p r c := by
  simp only [colRows, mem_seenRows, Entry, and_assoc]

theorem mem_rowCols {r x c : Int} : c ∈ rowCols a p r x ↔ (0 ≤ c ∧ c < x) ∧ Entry a p r c := by
  simp [rowCols, mem_colRows]

theorem seenRows_self (c : Int) : seenRows a p c (p c) = ∅ := by simp [seenRows]

theorem Ico_right_succ (x y : Int) (h : x ≤ y) : Finset.Ico x (y + 1) = insert y (Finset.Ico x y) := by
  ext e
  simp only [Finset.mem_Ico, Finset.mem_insert]
  omega

theorem seenRows_succ (c i : Int) (h : p c ≤ i) : seenRows a p c (i + 1) = insert (a i) (seenRows a p c i) := by
  simp only [seenRows, Ico_right_succ _ _ h, Finset.image_insert]

theorem rowCols_succ (r x : Int) (h : 0 ≤ x) :
    (rowCols a p r (x + 1)).card = (rowCols a p r x).card + if r ∈ colRows a p x then 1 else 0 := by
  unfold rowCols
  rw [Ico_right_succ _ _ h, Finset.filter_insert]
  split
  · rw [Finset.card_insert_of_notMem (by simp)]
  · rfl

theorem rowCols_mono (r : Int) {x y : Int} (h : x ≤ y) : (rowCols a p r x).card ≤ (rowCols a p r y).card := by
  refine Finset.card_le_card fun c hc => ?_
  rw [mem_rowCols] at hc ⊢
  exact ⟨by omega, hc.2⟩

theorem rowCols_zero (r : Int) : rowCols a p r 0 = ∅ := by simp [rowCols]

theorem seenRows_card_le (c i : Int) (h : p c ≤ i) : ((seenRows a p c i).card : Int) ≤ i - p c := by
  have := Finset.card_image_le (s := Finset.Ico (p c) i) (f := a)
  rw [Int.card_Ico] at this
  unfold seenRows
  omega

theorem Spec.ColumnForm.mono' (h : ColumnForm a p m n) {c d : Int} (c0 : 0 ≤ c) (cd : c ≤ d) (dn : d ≤ n) : p c ≤ p d := by
  obtain ⟨k, rfl⟩ : ∃ k : Nat, d = c + k := ⟨(d - c).toNat, by omega⟩
  induction k with
  | zero => simp
  | succ k ih =>
    have := ih (by omega) (by push_cast at dn; omega)
    have h2 := h.mono (c + k) (by omega) (by push_cast at dn; omega)
    push_cast
    rw [← add_assoc]
    omega

theorem Spec.ColumnForm.nonneg (h : ColumnForm a p m n) {c : Int} (c0 : 0 ≤ c) (cn : c ≤ n) : 0 ≤ p c := by
  have := h.mono' (le_refl 0) c0 cn
  rw [h.first] at this
  exact this

theorem Spec.ColumnForm.entry (h : ColumnForm a p m n) {c : Int} (c0 : 0 ≤ c) (cn : c < n) {i : Int} (h1 : p c ≤ i) (h2 : i < p (c + 1)) :
    (0 ≤ i ∧ i < p n) ∧ 0 ≤ a i ∧ a i < m := by
  have e1 := h.nonneg c0 (by omega)
  have e2 := h.mono' (show 0 ≤ c + 1 by omega) (show c + 1 ≤ n by omega) (le_refl n)
  have : 0 ≤ i ∧ i < p n := by omega
  exact ⟨this, h.bound i this.1 this.2⟩

/-- The number of entries of the row form is at most that of the column form. -/
theorem Spec.ColumnForm.total (h : ColumnForm a p m n) : ∑ r ∈ Finset.Ico 0 m, ((rowCols a p r n).card : Int) ≤ p n := by
  have h1 : ∑ r ∈ Finset.Ico 0 m, (rowCols a p r n).card = ∑ c ∈ Finset.Ico 0 n, ((Finset.Ico 0 m).filter (fun r => r ∈ colRows a p c)).card :=
    Finset.sum_card_bipartiteAbove_eq_sum_card_bipartiteBelow (fun r c => r ∈ colRows a p c)
  have h2 : ∀ x, 0 ≤ x → x ≤ n → ((∑ c ∈ Finset.Ico 0 x, ((Finset.Ico 0 m).filter (fun r => r ∈ colRows a p c)).card : Nat) : Int) ≤ p x := by
    intro x x0
    obtain ⟨k, rfl⟩ : ∃ k : Nat, x = k := ⟨x.toNat, by omega⟩
    clear x0
    induction k with
    | zero => intro _; simp [h.first]
    | succ k ih =>
      intro hk
      push_cast at hk ⊢
      have := ih (by omega)
      rw [Ico_right_succ 0 (k : Int) (by omega), Finset.sum_insert (by simp)]
      have h3 : ((Finset.Ico 0 m).filter (fun r => r ∈ colRows a p k)).card ≤ (colRows a p k).card :=
        Finset.card_le_card fun r hr => (Finset.mem_filter.1 hr).2
      have h4 := seenRows_card_le (a := a) (p := p) k (p (k + 1)) (h.mono k (by omega) (by omega))
      unfold colRows at h3
      push_cast at this
      unfold colRows
      unfold colRows at this
      omega
  have := h2 n h.cols (le_refl _)
  rw [← h1] at this
  push_cast at this
  exact this

/-! ## The scan -/

theorem foldC_map {σ α β : Type} (f : σ → β → R (Except ColamdStats σ)) (g : α → β) (l : List α) (s : σ) :
    foldC f (l.map g) s = foldC (fun s x => f s (g x)) l s := by
  induction l generalizing s with
  | nil => rfl
  | cons x l ih =>
    simp only [List.map_cons, foldC, ih]

theorem slice_span {m : Mem Int} {start stop : Int} (h0 : 0 ≤ start) (h1 : start ≤ stop) (h2 : stop ≤ m.size) :
    m.slice start stop = .ok ((span start (stop - start).toNat).map m.get) := by
  rw [Mem.slice_of h0 h1 h2, span, List.map_map]
  rfl

/-- The entries at `lo..hi` are increasing. -/
def Increasing (a : Int → Int) (lo hi : Int) : Prop := ∀ i j, lo ≤ i → i < j → j < hi → a i < a j

/-- The statistics after jumbled entries. -/
def reportJumbled (st : ColamdStats) (l : List (Int × Int)) : ColamdStats :=
  match l.getLast? with
  | none => st
  | some e => { st with status := 1, info1 := e.1, info2 := e.2, info3 := st.info3 + l.length }

theorem reportJumbled_snoc (st : ColamdStats) (l : List (Int × Int)) (e : Int × Int) :
    reportJumbled st (l ++ [e]) = { reportJumbled st l with status := 1, info1 := e.1, info2 := e.2, info3 := (reportJumbled st l).info3 + 1 } := by
  unfold reportJumbled
  rw [List.getLast?_append]
  cases hl : l.getLast? with
  | none =>
    rw [List.getLast?_eq_none_iff] at hl
    subst hl
    simp
  | some e' =>
    simp
    ring

/-- The jumbled entries before position `i` of column `c`. -/
def jumbledTo (a p : Int → Int) (c i : Int) : List (Int × Int) :=
  jumbled a p c ++ ((span (p c) (i - p c).toNat).filter (jumbledAt a p c)).map fun i => (c, a i)

theorem jumbledTo_self (c : Int) : jumbledTo a p c (p c) = jumbled a p c := by simp [jumbledTo, span_zero]

theorem jumbledTo_succ {c i : Int} (h : p c ≤ i) : jumbledTo a p c (i + 1) = jumbledTo a p c i ++ if jumbledAt a p c i then [(c, a i)] else [] := by
  unfold jumbledTo
  rw [show (i + 1 - p c).toNat = (i - p c).toNat + 1 by omega, span_succ, List.filter_append, List.map_append,
    show p c + ((i - p c).toNat : Int) = i by omega, List.append_assoc]
  congr 2
  by_cases hj : jumbledAt a p c i <;> simp [hj]

theorem jumbledTo_next {c : Int} (h : 0 ≤ c) : jumbledTo a p (c + 1) (p (c + 1)) = jumbledTo a p c (p (c + 1)) := by
  rw [jumbledTo_self]
  unfold jumbledTo jumbled
  rw [show (c + 1).toNat = c.toNat + 1 by omega, span_succ, List.flatMap_append, zero_add, show ((c.toNat : Nat) : Int) = c by omega]
  simp

theorem mem_span_iff {start x : Int} {k : Nat} : x ∈ span start k ↔ start ≤ x ∧ x < start + k := by
  unfold span
  simp only [List.mem_map, List.mem_range]
  constructor
  · rintro ⟨y, hy, rfl⟩; omega
  · rintro ⟨h1, h2⟩; exact ⟨(x - start).toNat, by omega, by omega⟩

theorem jumbledAt_iff {c i : Int} (h : p c ≤ i) : jumbledAt a p c i = true ↔ (p c < i ∧ a i ≤ a (i - 1)) ∨ a i ∈ seenRows a p c i := by
  unfold jumbledAt seenRows
  simp only [List.any_eq_true, decide_eq_true_eq, Finset.mem_image, Finset.mem_Ico]
  constructor
  · rintro ⟨j, hj, e | ⟨e, hlt⟩⟩
    · rw [mem_span_iff] at hj
      exact Or.inr ⟨j, by omega, e⟩
    · rw [mem_span_iff] at hj
      refine Or.inl ⟨by omega, ?_⟩
      rw [show i - 1 = j by omega]
      omega
  · rintro (⟨h1, h2⟩ | ⟨j, hj, e⟩)
    · refine ⟨i - 1, mem_span_iff.2 (by omega), ?_⟩
      rcases eq_or_lt_of_le h2 with he | hl
      · exact Or.inl he.symm
      · exact Or.inr ⟨by omega, hl⟩
    · exact ⟨j, mem_span_iff.2 (by omega), Or.inl e⟩

/-- The state of the scan in column `col` before position `i`. -/
structure ColScanInv (a p : Int → Int) (m : Int) (rows0 : Mem ColamdRow) (cols0 : Mem ColamdCol) (stats0 : ColamdStats) (col i : Int)
    (s : ColumnScan) : Prop where
  rsize : s.rows.size = rows0.size
  csize : s.cols.size = cols0.size
  length : ∀ r, 0 ≤ r → r < m → (s.rows.get r).length = (rowCols a p r col).card + if r ∈ seenRows a p col i then 1 else 0
  mark : ∀ r, 0 ≤ r → r < m → (s.rows.get r).mark ≤ col ∧ ((s.rows.get r).mark = col ↔ r ∈ seenRows a p col i)
  before : ∀ c, 0 ≤ c → c < col → s.cols.get c = { cols0.get c with length := (colRows a p c).card }
  current : s.cols.get col = { cols0.get col with length := (cols0.get col).length - ((i - p col) - (seenRows a p col i).card) }
  after : ∀ c, col < c → s.cols.get c = cols0.get c
  last : if i = p col then s.lastRow = -1 else s.lastRow = a (i - 1)
  jumbled : s.stats.status = 1 ∨ s.stats = stats0 ∧ (∀ c, 0 ≤ c → c < col → Increasing a (p c) (p (c + 1))) ∧ Increasing a (p col) i
  sorted : (∀ c, 0 ≤ c → c < col → Increasing a (p c) (p (c + 1))) → Increasing a (p col) i → s.stats = stats0
  report : s.stats = reportJumbled stats0 (jumbledTo a p col i)

theorem scanEntry_inv (h : ColumnForm a p m n) {rows0 : Mem ColamdRow} {cols0 : Mem ColamdCol} {stats0 : ColamdStats} {col i : Int}
    {s : ColumnScan} (hs : ColScanInv a p m rows0 cols0 stats0 col i s) (c0 : 0 ≤ col) (cn : col < n) (h1 : p col ≤ i) (h2 : i < p (col + 1))
    (hr : m ≤ rows0.size) (hc : n ≤ cols0.size) :
    ∃ s', scanEntry m col s (a i) = .ok (.ok s') ∧ ColScanInv a p m rows0 cols0 stats0 col (i + 1) s' := by
  obtain ⟨_, r0, rm⟩ := h.entry c0 cn h1 h2
  obtain ⟨hrs, hcs, hlen, hmark, hbef, hcur, haft, hlast, hjum, hsor, hrep⟩ := hs
  -- the order of the new entry
  have hinc : Increasing a (p col) i → (¬ (a i ≤ s.lastRow ∨ (s.rows.get (a i)).mark = col) ↔ Increasing a (p col) (i + 1)) := by
    intro hi
    constructor
    · intro hn x y hx hxy hy
      by_cases hyi : y < i
      · exact hi x y hx hxy hyi
      · have : y = i := by omega
        subst this
        rw [if_neg (by omega)] at hlast
        by_cases hx1 : x = y - 1
        · rw [hx1, ← hlast]; omega
        · have := hi x (y - 1) hx (by omega) (by omega)
          omega
    · intro hi' hor
      rcases hor with hor | hor
      · by_cases hip : i = p col
        · rw [if_pos hip] at hlast; omega
        · rw [if_neg hip] at hlast
          have := hi' (i - 1) i (by omega) (by omega) (by omega)
          omega
      · rw [(hmark _ r0 rm).2, mem_seenRows] at hor
        obtain ⟨j, hj, hja⟩ := hor
        have := hi' j i hj.1 hj.2 (by omega)
        omega
  have hincm : Increasing a (p col) (i + 1) → Increasing a (p col) i := fun hi x y hx hxy hy => hi x y hx hxy (by omega)
  have hjum' : ∀ st : ColamdStats, st = (if a i ≤ s.lastRow ∨ (s.rows.get (a i)).mark = col then
      { s.stats with status := 1, info1 := col, info2 := a i, info3 := s.stats.info3 + 1 } else s.stats) →
      (st.status = 1 ∨ st = stats0 ∧ (∀ c, 0 ≤ c → c < col → Increasing a (p c) (p (c + 1))) ∧ Increasing a (p col) (i + 1)) ∧
      ((∀ c, 0 ≤ c → c < col → Increasing a (p c) (p (c + 1))) → Increasing a (p col) (i + 1) → st = stats0) := by
    intro st hst
    by_cases hj : a i ≤ s.lastRow ∨ (s.rows.get (a i)).mark = col
    · rw [if_pos hj] at hst
      subst hst
      refine ⟨Or.inl rfl, fun _ hi => ?_⟩
      exact absurd hj ((hinc (hincm hi)).2 hi)
    · rw [if_neg hj] at hst
      subst hst
      refine ⟨?_, fun hb hi => hsor hb (hincm hi)⟩
      rcases hjum with hjum | ⟨e1, e2, e3⟩
      · exact Or.inl hjum
      · exact Or.inr ⟨e1, e2, (hinc e3).1 hj⟩
  have hrep' : (if a i ≤ s.lastRow ∨ (s.rows.get (a i)).mark = col then
      { s.stats with status := 1, info1 := col, info2 := a i, info3 := s.stats.info3 + 1 } else s.stats) =
      reportJumbled stats0 (jumbledTo a p col (i + 1)) := by
    have hiff : (a i ≤ s.lastRow ∨ (s.rows.get (a i)).mark = col) ↔ jumbledAt a p col i = true := by
      rw [jumbledAt_iff h1, (hmark _ r0 rm).2]
      refine or_congr_left ?_
      by_cases hip : i = p col
      · rw [if_pos hip] at hlast; omega
      · rw [if_neg hip] at hlast
        rw [hlast]
        constructor
        · exact fun hh => ⟨by omega, hh⟩
        · exact fun hh => hh.2
    rw [jumbledTo_succ h1]
    by_cases hj : a i ≤ s.lastRow ∨ (s.rows.get (a i)).mark = col
    · rw [if_pos hj, if_pos (hiff.1 hj), reportJumbled_snoc, ← hrep]
    · rw [if_neg hj, if_neg (fun hh => hj (hiff.2 hh)), List.append_nil, hrep]
  unfold scanEntry
  rw [if_neg (by omega), Mem.read_of r0 (by rw [hrs]; omega), ok_bind]
  simp only
  have hlast' : if i + 1 = p col then a i = -1 else a i = a (i + 1 - 1) := by
    rw [if_neg (by omega), add_sub_cancel_right]
  by_cases hm : (s.rows.get (a i)).mark = col
  · have hin : a i ∈ seenRows a p col i := (hmark _ r0 rm).2.1 hm
    have hseen : seenRows a p col (i + 1) = seenRows a p col i := by rw [seenRows_succ _ _ h1, Finset.insert_eq_of_mem hin]
    rw [if_neg (by simp [hm]), Mem.modify_of _ c0 (by rw [hcs]; omega), ok_bind, Mem.write_of _ r0 (by rw [hrs]; omega), ok_bind]
    refine ⟨_, rfl, hrs, hcs, fun r h0 h1 => ?_, fun r h0 h1 => ?_, fun c h0 h1 => ?_, ?_, fun c h1 => ?_, hlast', (hjum' _ rfl).1, (hjum' _ rfl).2, hrep'⟩
    · rw [Mem.put_get, hseen]
      split
      · rename_i he; subst he; exact hlen _ r0 rm
      · exact hlen r h0 h1
    · rw [Mem.put_get, hseen]
      split
      · rename_i he; subst he; simp only [le_refl, true_and, true_iff]; exact hin
      · exact hmark r h0 h1
    · show ((s.cols.put _ _).get c) = _
      rw [Mem.put_get_ne _ _ (by omega)]
      exact hbef c h0 h1
    · show ((s.cols.put _ _).get col) = _
      rw [Mem.put_get_self, hseen, hcur]
      simp only [ColamdCol.mk.injEq, true_and, and_true]
      omega
    · show ((s.cols.put _ _).get c) = _
      rw [Mem.put_get_ne _ _ (by omega)]
      exact haft c h1
  · have hin : a i ∉ seenRows a p col i := fun hh => hm ((hmark _ r0 rm).2.2 hh)
    have hcard : (seenRows a p col (i + 1)).card = (seenRows a p col i).card + 1 := by
      rw [seenRows_succ _ _ h1, Finset.card_insert_of_notMem hin]
    rw [if_pos hm, Mem.write_of _ r0 (by rw [hrs]; omega), ok_bind]
    refine ⟨_, rfl, hrs, hcs, fun r h0 h1' => ?_, fun r h0 h1' => ?_, hbef, ?_, haft, hlast', (hjum' _ rfl).1, (hjum' _ rfl).2, hrep'⟩
    · show ((s.rows.put _ _).get r).length = _
      rw [Mem.put_get, seenRows_succ _ _ h1]
      split
      · rename_i he; subst he
        simp only [Finset.mem_insert, true_or, if_true]
        have := hlen _ r0 rm
        rw [if_neg hin] at this
        omega
      · rename_i he
        simp only [Finset.mem_insert, he, false_or]
        exact hlen r h0 h1'
    · show ((s.rows.put _ _).get r).mark ≤ _ ∧ (((s.rows.put _ _).get r).mark = _ ↔ _)
      rw [Mem.put_get, seenRows_succ _ _ h1]
      split
      · rename_i he; subst he; simp
      · rename_i he
        simp only [Finset.mem_insert, he, false_or]
        exact hmark r h0 h1'
    · show s.cols.get col = _
      rw [hcard, hcur]
      simp only [ColamdCol.mk.injEq, true_and, and_true]
      push_cast
      omega

theorem scanColumn_inv (h : ColumnForm a p m n) {am pm : Mem Int} (ha : am.get = a) (hp : pm.get = p) (hn : p n ≤ am.size) (hpn : n < pm.size)
    {rows0 : Mem ColamdRow} {cols0 : Mem ColamdCol} {stats0 : ColamdStats} {col : Int} {s : ColumnScan} (c0 : 0 ≤ col) (cn : col < n)
    (hr : m ≤ rows0.size) (hc : n ≤ cols0.size) (hs : ColScanInv a p m rows0 cols0 stats0 col (p col) { s with lastRow := -1 })
    (hlen : ∀ c, 0 ≤ c → c < n → (cols0.get c).length = p (c + 1) - p c) :
    ∃ s', scanColumn m am pm s col = .ok (.ok s') ∧
      ColScanInv a p m rows0 cols0 stats0 (col + 1) (p (col + 1)) { s' with lastRow := -1 } := by
  have hmono := h.mono col c0 cn
  have hle := h.mono' (show 0 ≤ col + 1 by omega) (show col + 1 ≤ n by omega) (le_refl n)
  have h0 := h.nonneg c0 (show col ≤ n by omega)
  unfold scanColumn
  rw [Mem.read_of c0 (by omega), ok_bind, Mem.read_of (by omega) (by omega), ok_bind, hp, slice_span h0 hmono (by omega), ok_bind, foldC_map, ha]
  have := foldC_span (ColScanInv a p m rows0 cols0 stats0 col) (fun _ => False) (fun s x => scanEntry m col s (a x)) (p col) (p (col + 1))
    (p (col + 1) - p col).toNat (by omega) { s with lastRow := -1 } hs
    (fun x h1 h2 s hs => Or.inl (scanEntry_inv h hs c0 cn h1 h2 hr hc))
  rcases this with ⟨s', h1, hs'⟩ | ⟨_, _, hf⟩
  · refine ⟨s', h1, ?_⟩
    obtain ⟨hrs, hcs, hlen', hmark, hbef, hcur, haft, hlast, hjum, hsor, hrep⟩ := hs'
    have hcur' : s'.cols.get col = { cols0.get col with length := (colRows a p col).card } := by
      rw [hcur, hlen col c0 cn]
      simp only [ColamdCol.mk.injEq, true_and, and_true, colRows]
      omega
    refine ⟨hrs, hcs, fun r r0 rm => ?_, fun r r0 rm => ?_, fun c h0 h1 => ?_, ?_, fun c h1 => haft c (by omega), ?_, ?_, ?_, by rw [jumbledTo_next c0]; exact hrep⟩
    · simp only [seenRows_self, Finset.notMem_empty, if_false]
      rw [hlen' r r0 rm, rowCols_succ _ _ c0]
      by_cases hx : r ∈ seenRows a p col (p (col + 1)) <;> simp [colRows, hx]
    · have := (hmark r r0 rm).1
      simp only [seenRows_self, Finset.notMem_empty, iff_false]
      omega
    · rcases eq_or_ne c col with rfl | hne
      · exact hcur'
      · exact hbef c h0 (by omega)
    · simp only [seenRows_self, Finset.card_empty, sub_self, Nat.cast_zero, sub_zero]
      exact haft _ (by omega)
    · simp
    · rcases hjum with hj | ⟨e1, e2, e3⟩
      · exact Or.inl hj
      · refine Or.inr ⟨e1, fun c d0 d1 => ?_, fun i j hi hij hj => by omega⟩
        rcases eq_or_ne c col with rfl | hne
        · exact e3
        · exact e2 c d0 (by omega)
    · intro hall _
      exact hsor (fun c d0 d1 => hall c d0 (by omega)) (hall col c0 (by omega))
  · exact hf.elim

/-- The scan of all columns. -/
theorem scan_of (h : ColumnForm a p m n) {am pm : Mem Int} (ha : am.get = a) (hp : pm.get = p) (hn : p n ≤ am.size) (hpn : n < pm.size)
    {rows0 : Mem ColamdRow} {cols0 : Mem ColamdCol} {stats0 : ColamdStats} (hr : m ≤ rows0.size) (hc : n ≤ cols0.size)
    (hlen : ∀ c, 0 ≤ c → c < n → (cols0.get c).length = p (c + 1) - p c)
    (hrows : ∀ r, 0 ≤ r → r < m → (rows0.get r).length = 0 ∧ (rows0.get r).mark = -1) :
    ∃ s, foldC (scanColumn m am pm) (span 0 n.toNat) ⟨rows0, cols0, stats0, -1⟩ = .ok (.ok s) ∧
      s.rows.size = rows0.size ∧ s.cols.size = cols0.size ∧
      (∀ r, 0 ≤ r → r < m → (s.rows.get r).length = (rowCols a p r n).card) ∧
      (∀ c, 0 ≤ c → c < n → s.cols.get c = { cols0.get c with length := (colRows a p c).card }) ∧
      (s.stats.status = 1 ∨ s.stats = stats0 ∧ SortedColumns a p n) ∧ (SortedColumns a p n → s.stats = stats0) ∧
      s.stats = reportJumbled stats0 (jumbled a p n) := by
  have n0 := h.cols
  have := foldC_span (fun col (s : ColumnScan) => ColScanInv a p m rows0 cols0 stats0 col (p col) { s with lastRow := -1 }) (fun _ => False)
    (scanColumn m am pm) 0 n n.toNat (by omega) ⟨rows0, cols0, stats0, -1⟩ (by
      refine ⟨rfl, rfl, fun r r0 rm => ?_, fun r r0 rm => ?_, fun c _ _ => by omega, ?_, fun _ _ => rfl, ?_, Or.inr ⟨rfl, fun c _ _ => by omega, fun i j _ _ _ => by omega⟩, fun _ _ => rfl, ?_⟩
      · simp [seenRows_self, rowCols_zero, (hrows r r0 rm).1]
      · simp [seenRows_self, (hrows r r0 rm).2]
      · simp [seenRows_self]
      · simp
      · simp [jumbledTo_self, jumbled, span_zero, reportJumbled])
    (fun x h1 h2 s hs => Or.inl (scanColumn_inv h ha hp hn hpn h1 h2 hr hc hs hlen))
  rcases this with ⟨s, h1, hs⟩ | ⟨_, _, hf⟩
  · refine ⟨s, h1, hs.rsize, hs.csize, fun r r0 rm => ?_, fun c d0 d1 => hs.before c d0 d1, ?_, fun hsort => ?_, by have := hs.report; rwa [jumbledTo_self] at this⟩
    · have := hs.length r r0 rm
      simpa [seenRows_self] using this
    · rcases hs.jumbled with hj | ⟨e1, e2, _⟩
      · exact Or.inl hj
      · exact Or.inr ⟨e1, e2⟩
    · exact hs.sorted hsort (fun i j _ _ _ => by omega)
  · exact hf.elim

/-! ## The row form -/

/-- The first position of row `r` in the row form. -/
def rowStart (a p : Int → Int) (n r : Int) : Int := p n + ∑ s ∈ Finset.Ico 0 r, ((rowCols a p s n).card : Int)

theorem rowStart_zero : rowStart a p n 0 = p n := by simp [rowStart]

theorem rowStart_succ {r : Int} (h : 0 ≤ r) : rowStart a p n (r + 1) = rowStart a p n r + (rowCols a p r n).card := by
  simp only [rowStart, Ico_right_succ 0 r h, Finset.sum_insert (show r ∉ Finset.Ico 0 r by simp)]
  ring

theorem rowStart_mono {r s : Int} (h : r ≤ s) : rowStart a p n r ≤ rowStart a p n s := by
  unfold rowStart
  have := Finset.sum_le_sum_of_subset_of_nonneg (s := Finset.Ico 0 r) (t := Finset.Ico 0 s) (f := fun x => ((rowCols a p x n).card : Int))
    (fun x hx => by simp only [Finset.mem_Ico] at hx ⊢; omega) (fun _ _ _ => by positivity)
  omega

theorem Spec.ColumnForm.rowStart_le (h : ColumnForm a p m n) : rowStart a p n m ≤ 2 * p n := by
  have := h.total
  unfold rowStart
  omega

/-- Row `r` ends before row `s` starts. -/
theorem rowStart_disjoint {r s : Int} (h : 0 ≤ r) (hs : r < s) : rowStart a p n r + (rowCols a p r n).card ≤ rowStart a p n s := by
  rw [← rowStart_succ h]
  exact rowStart_mono (by omega)

/-- The position of column `c` in row `r` of the row form. -/
def rowSlot (a p : Int → Int) (n r c : Int) : Int := rowStart a p n r + (rowCols a p r c).card

theorem rowCols_lt {r c d : Int} (h : c < d) (h0 : 0 ≤ c) (he : Entry a p r c) : (rowCols a p r c).card < (rowCols a p r d).card := by
  have h1 := rowCols_succ (a := a) (p := p) r c h0
  rw [if_pos (mem_colRows.2 he)] at h1
  have := rowCols_mono (a := a) (p := p) r (show c + 1 ≤ d by omega)
  omega

theorem rowSlot_lt {r c : Int} (h0 : 0 ≤ c) (h1 : c < n) (he : Entry a p r c) :
    rowSlot a p n r c < rowStart a p n r + (rowCols a p r n).card := by
  have := rowCols_lt h1 h0 he
  unfold rowSlot
  omega

theorem rowSlot_injective {r s c d : Int} (r0 : 0 ≤ r) (s0 : 0 ≤ s) (c0 : 0 ≤ c) (cn : c < n) (d0 : 0 ≤ d) (dn : d < n)
    (hc : Entry a p r c) (hd : Entry a p s d) (h : rowSlot a p n r c = rowSlot a p n s d) : r = s ∧ c = d := by
  have hb : ∀ r c, rowStart a p n r ≤ rowSlot a p n r c := fun r c => by unfold rowSlot; omega
  have h1 := rowSlot_lt c0 cn hc
  have h2 := rowSlot_lt d0 dn hd
  have h3 := hb r c
  have h4 := hb s d
  have hrs : r = s := by
    rcases lt_trichotomy r s with hlt | heq | hlt
    · have := rowStart_disjoint (a := a) (p := p) (n := n) r0 hlt
      omega
    · exact heq
    · have := rowStart_disjoint (a := a) (p := p) (n := n) s0 hlt
      omega
  subst hrs
  refine ⟨rfl, ?_⟩
  unfold rowSlot at h
  rcases lt_trichotomy c d with hlt | heq | hlt
  · have := rowCols_lt hlt c0 hc
    omega
  · exact heq
  · have := rowCols_lt hlt d0 hd
    omega

/-- Every position of row `r` of the row form belongs to a column of the row. -/
theorem rowSlot_surjective {r : Int} (n0 : 0 ≤ n) {k : Nat} (hk : k < (rowCols a p r n).card) :
    ∃ c, (0 ≤ c ∧ c < n) ∧ Entry a p r c ∧ (rowCols a p r c).card = k := by
  obtain ⟨x, rfl⟩ : ∃ x : Nat, n = x := ⟨n.toNat, by omega⟩
  clear n0
  induction x with
  | zero => simp [rowCols_zero] at hk
  | succ x ih =>
    push_cast at hk ⊢
    rw [rowCols_succ r x (by omega)] at hk
    by_cases hlt : k < (rowCols a p r x).card
    · obtain ⟨c, h1, h2, h3⟩ := ih hlt
      exact ⟨c, by omega, h2, h3⟩
    · by_cases he : r ∈ colRows a p x
      · rw [if_pos he] at hk
        exact ⟨x, by omega, mem_colRows.1 he, by omega⟩
      · rw [if_neg he] at hk
        omega

/-- The cells of row `r` list its columns. -/
theorem lists_of_slots {r : Int} {f : Int → Int} (n0 : 0 ≤ n)
    (h : ∀ c, 0 ≤ c → c < n → Entry a p r c → f (rowSlot a p n r c) = c) :
    Lists f (rowStart a p n r) (rowCols a p r n).card (fun c => (0 ≤ c ∧ c < n) ∧ Entry a p r c) := by
  have key : ∀ i, rowStart a p n r ≤ i → i < rowStart a p n r + (rowCols a p r n).card →
      ∃ c, (0 ≤ c ∧ c < n) ∧ Entry a p r c ∧ rowSlot a p n r c = i ∧ f i = c := by
    intro i h1 h2
    obtain ⟨c, hc, he, hk⟩ := rowSlot_surjective (a := a) (p := p) (r := r) n0 (k := (i - rowStart a p n r).toNat) (by omega)
    have hs : rowSlot a p n r c = i := by unfold rowSlot; omega
    exact ⟨c, hc, he, hs, by rw [← hs]; exact h c hc.1 hc.2 he⟩
  refine ⟨by omega, fun i j hi hij hj => ?_, fun c => ⟨fun ⟨hc, he⟩ => ?_, fun ⟨i, h1, h2, h3⟩ => ?_⟩⟩
  · obtain ⟨c, hc, hec, hsc, hfc⟩ := key i hi (by omega)
    obtain ⟨d, hd, hed, hsd, hfd⟩ := key j (by omega) hj
    rw [hfc, hfd]
    by_contra hlt
    have : (rowCols a p r d).card ≤ (rowCols a p r c).card := rowCols_mono r (by omega)
    unfold rowSlot at hsc hsd
    omega
  · refine ⟨rowSlot a p n r c, ?_, rowSlot_lt hc.1 hc.2 he, h c hc.1 hc.2 he⟩
    unfold rowSlot; omega
  · obtain ⟨d, hd, hed, _, hfd⟩ := key i h1 h2
    rw [h3] at hfd
    subst hfd
    exact ⟨hd, hed⟩

/-- The state of the row form in column `col` before position `i`. -/
structure FormInv (a p : Int → Int) (m n : Int) (jumbled : Bool) (rows0 : Mem ColamdRow) (a0 : Mem Int) (col i : Int)
    (s : Mem ColamdRow × Mem Int) : Prop where
  rsize : s.1.size = rows0.size
  asize : s.2.size = a0.size
  start : ∀ r, 0 ≤ r → r < m → (s.1.get r).start = rowStart a p n r ∧ (s.1.get r).length = (rowCols a p r n).card
  degree : ∀ r, 0 ≤ r → r < m → (s.1.get r).degree = rowSlot a p n r col + if r ∈ seenRows a p col i then 1 else 0
  mark : jumbled = true → ∀ r, 0 ≤ r → r < m → (s.1.get r).mark ≤ col ∧ ((s.1.get r).mark = col ↔ r ∈ seenRows a p col i)
  low : ∀ x, x < p n → s.2.get x = a0.get x
  slots : ∀ r c, 0 ≤ r → r < m → 0 ≤ c → (c < col ∨ c = col ∧ r ∈ seenRows a p col i) → Entry a p r c → s.2.get (rowSlot a p n r c) = c

theorem rowFormEntry_inv (h : ColumnForm a p m n) {jumbled : Bool} {rows0 : Mem ColamdRow} {a0 : Mem Int} (ha : ∀ x, x < p n → a0.get x = a x)
    (hj : jumbled = false → SortedColumns a p n) (hr : m ≤ rows0.size) (hsize : 2 * p n ≤ a0.size)
    {col i : Int} {s : Mem ColamdRow × Mem Int} (hs : FormInv a p m n jumbled rows0 a0 col i s) (c0 : 0 ≤ col) (cn : col < n)
    (h1 : p col ≤ i) (h2 : i < p (col + 1)) :
    ∃ s', rowFormEntry jumbled col s i = .ok s' ∧ FormInv a p m n jumbled rows0 a0 col (i + 1) s' := by
  obtain ⟨⟨i0, in'⟩, r0, rm⟩ := h.entry c0 cn h1 h2
  have hread : s.2.get i = a i := by rw [hs.low i in', ha i in']
  have he : Entry a p (a i) col := ⟨i, h1, h2, rfl⟩
  have hpn := h.nonneg h.cols (le_refl n)
  unfold rowFormEntry
  rw [Mem.read_of i0 (by rw [hs.asize]; omega), ok_bind, hread, Mem.read_of r0 (by rw [hs.rsize]; omega), ok_bind]
  by_cases hskip : jumbled = true ∧ (s.1.get (a i)).mark = col
  · rw [if_pos hskip]
    have hin := ((hs.mark hskip.1 _ r0 rm).2).1 hskip.2
    have hseen : seenRows a p col (i + 1) = seenRows a p col i := by rw [seenRows_succ _ _ h1, Finset.insert_eq_of_mem hin]
    refine ⟨s, rfl, hs.rsize, hs.asize, hs.start, ?_, ?_, hs.low, ?_⟩
    · rw [hseen]; exact hs.degree
    · rw [hseen]; exact hs.mark
    · rw [hseen]; exact hs.slots
  · rw [if_neg hskip]
    have hin : a i ∉ seenRows a p col i := by
      intro hin
      cases jumbled with
      | true => exact hskip ⟨rfl, ((hs.mark rfl _ r0 rm).2).2 hin⟩
      | false =>
        rw [mem_seenRows] at hin
        obtain ⟨j, hj1, hj2⟩ := hin
        have := hj rfl col c0 cn j i hj1.1 hj1.2 h2
        omega
    have hdeg := hs.degree _ r0 rm
    rw [if_neg hin, add_zero] at hdeg
    have hslot1 : p n ≤ rowSlot a p n (a i) col := by
      have := rowStart_mono (a := a) (p := p) (n := n) r0
      rw [rowStart_zero] at this
      unfold rowSlot
      omega
    have hslot2 : rowSlot a p n (a i) col < 2 * p n := by
      have e1 := rowSlot_lt c0 cn he
      have e2 := rowStart_disjoint (a := a) (p := p) (n := n) r0 rm
      have e3 := h.rowStart_le
      omega
    rw [hdeg, Mem.write_of _ (by omega) (by rw [hs.asize]; omega), ok_bind, Mem.write_of _ r0 (by rw [hs.rsize]; omega), ok_bind]
    refine ⟨_, rfl, hs.rsize, hs.asize, fun r h0 hm => ?_, fun r h0 hm => ?_, fun hj' r h0 hm => ?_, fun x hx => ?_, fun r c h0 hm hc0 hc he' => ?_⟩
    · show ((s.1.put _ _).get r).start = _ ∧ ((s.1.put _ _).get r).length = _
      rw [Mem.put_get]
      split
      · rename_i heq; subst heq; exact hs.start _ r0 rm
      · exact hs.start r h0 hm
    · show ((s.1.put _ _).get r).degree = _
      rw [Mem.put_get, seenRows_succ _ _ h1]
      split
      · rename_i heq; subst heq; simp
      · rename_i heq
        simp only [Finset.mem_insert, heq, false_or]
        exact hs.degree r h0 hm
    · show ((s.1.put _ _).get r).mark ≤ _ ∧ (((s.1.put _ _).get r).mark = _ ↔ _)
      rw [Mem.put_get, seenRows_succ _ _ h1]
      split
      · rename_i heq; subst heq; simp [hj']
      · rename_i heq
        simp only [Finset.mem_insert, heq, false_or]
        exact hs.mark hj' r h0 hm
    · show (s.2.put _ _).get x = _
      rw [Mem.put_get_ne _ _ (by omega)]
      exact hs.low x hx
    · show (s.2.put _ _).get _ = _
      have hcn : c < n := by omega
      by_cases heq : rowSlot a p n r c = rowSlot a p n (a i) col
      · obtain ⟨e1, e2⟩ := rowSlot_injective h0 r0 hc0 hcn c0 cn he' he heq
        subst e1; subst e2
        rw [Mem.put_get_self]
      · rw [Mem.put_get_ne _ _ heq]
        refine hs.slots r c h0 hm hc0 ?_ he'
        rcases hc with hc | ⟨hc, hin'⟩
        · exact Or.inl hc
        · subst hc
          rw [seenRows_succ _ _ h1, Finset.mem_insert] at hin'
          rcases hin' with rfl | hin'
          · exact absurd rfl heq
          · exact Or.inr ⟨rfl, hin'⟩

theorem rowFormColumn_inv (h : ColumnForm a p m n) {jumbled : Bool} {rows0 : Mem ColamdRow} {a0 pm : Mem Int} (ha : ∀ x, x < p n → a0.get x = a x)
    (hp : pm.get = p) (hpn : n < pm.size) (hj : jumbled = false → SortedColumns a p n) (hr : m ≤ rows0.size) (hsize : 2 * p n ≤ a0.size)
    {col : Int} {s : Mem ColamdRow × Mem Int} (hs : FormInv a p m n jumbled rows0 a0 col (p col) s) (c0 : 0 ≤ col) (cn : col < n) :
    ∃ s', rowFormColumn jumbled pm s col = .ok s' ∧ FormInv a p m n jumbled rows0 a0 (col + 1) (p (col + 1)) s' := by
  have hmono := h.mono col c0 cn
  unfold rowFormColumn
  rw [Mem.read_of c0 (by omega), ok_bind, Mem.read_of (by omega) (by omega), ok_bind, hp]
  obtain ⟨s', h1, hs'⟩ := foldlM_span (FormInv a p m n jumbled rows0 a0 col) (rowFormEntry jumbled col) (p col) (p (col + 1))
    (p (col + 1) - p col).toNat (by omega) s hs (fun x h1 h2 s hs => rowFormEntry_inv h ha hj hr hsize hs c0 cn h1 h2)
  refine ⟨s', h1, hs'.rsize, hs'.asize, hs'.start, fun r r0 rm => ?_, fun hjt r r0 rm => ?_, hs'.low, fun r c r0 rm hc0 hc he => ?_⟩
  · rw [hs'.degree r r0 rm, seenRows_self]
    unfold rowSlot
    rw [rowCols_succ _ _ c0]
    by_cases hx : r ∈ seenRows a p col (p (col + 1)) <;> simp [colRows, hx, add_assoc]
  · have := (hs'.mark hjt r r0 rm).1
    simp only [seenRows_self, Finset.notMem_empty, iff_false]
    omega
  · refine hs'.slots r c r0 rm hc0 ?_ he
    rw [seenRows_self] at hc
    rcases hc with hc | ⟨_, hc⟩
    · rcases eq_or_ne c col with rfl | hne
      · exact Or.inr ⟨rfl, mem_colRows.2 he⟩
      · exact Or.inl (by omega)
    · simp at hc

/-- The row pointers. -/
theorem rowPointers_of {rows : Mem ColamdRow} {total : Int} (m0 : 0 ≤ m) (hr : m ≤ rows.size) (hp : total = p n)
    (hlen : ∀ r, 0 ≤ r → r < m → (rows.get r).length = (rowCols a p r n).card) :
    ∃ rows', (span 1 (m - 1).toNat).foldlM rowPointer (rows.put 0 { rows.get 0 with start := total, degree := total, mark := -1 }) = .ok rows' ∧
      rows'.size = rows.size ∧
      ∀ r, 0 ≤ r → r < m → rows'.get r = ⟨rowStart a p n r, (rowCols a p r n).card, rowStart a p n r, -1⟩ := by
  rcases eq_or_lt_of_le m0 with rfl | m0
  · exact ⟨_, rfl, rfl, fun r r0 rm => by omega⟩
  obtain ⟨rows', h1, h2, h3, _⟩ := foldlM_span (fun x (rs : Mem ColamdRow) => rs.size = rows.size ∧
      (∀ r, 0 ≤ r → r < x → rs.get r = ⟨rowStart a p n r, (rowCols a p r n).card, rowStart a p n r, -1⟩) ∧
      ∀ r, x ≤ r → rs.get r = rows.get r) rowPointer 1 m (m - 1).toNat (by omega)
    (rows.put 0 { rows.get 0 with start := total, degree := total, mark := -1 }) (by
      refine ⟨rfl, fun r r0 r1 => ?_, fun r hr => Mem.put_get_ne _ _ (by omega)⟩
      have : r = 0 := by omega
      subst this
      rw [Mem.put_get_self, rowStart_zero, hp]
      simp only [hlen 0 (le_refl _) m0]) (by
      rintro x x1 xm rs ⟨e1, e2, e3⟩
      unfold rowPointer
      rw [Mem.read_of (by omega) (by omega), ok_bind, Mem.modify_of _ (by omega) (by omega)]
      refine ⟨_, rfl, e1, fun r r0 r1 => ?_, fun r hr => ?_⟩
      · rcases eq_or_ne r x with rfl | hne
        · rw [Mem.put_get_self, e2 (r - 1) (by omega) (by omega), e3 r (le_refl _), hlen r r0 xm]
          have := rowStart_succ (a := a) (p := p) (n := n) (show 0 ≤ r - 1 by omega)
          rw [sub_add_cancel] at this
          simp only [this]
        · rw [Mem.put_get_ne _ _ hne]
          exact e2 r r0 (by omega)
      · rw [Mem.put_get_ne _ _ (by omega)]
        exact e3 r (by omega))
  exact ⟨rows', h1, h2, h3⟩

/-- The row form is correct, sorted or not. -/
theorem rowForm_of (h : ColumnForm a p m n) {jumbled : Bool} {rows : Mem ColamdRow} {am pm : Mem Int} (ha : ∀ x, x < p n → am.get x = a x)
    (hp : pm.get = p) (hpn : n < pm.size) (hj : jumbled = false → SortedColumns a p n) (hr : m ≤ rows.size) (hr0 : 0 < rows.size)
    (hsize : 2 * p n ≤ am.size) (hlen : ∀ r, 0 ≤ r → r < m → (rows.get r).length = (rowCols a p r n).card) :
    ∃ rows' a', rowForm m n jumbled rows am pm = .ok (rows', a') ∧ rows'.size = rows.size ∧ a'.size = am.size ∧
      (∀ r, 0 ≤ r → r < m → rows'.get r = ⟨rowStart a p n r, (rowCols a p r n).card, (rowCols a p r n).card, 0⟩) ∧
      (∀ x, x < p n → a'.get x = a x) ∧
      ∀ r c, 0 ≤ r → r < m → 0 ≤ c → c < n → Entry a p r c → a'.get (rowSlot a p n r c) = c := by
  have n0 := h.cols
  unfold rowForm
  rw [Mem.read_of n0 hpn, ok_bind, Mem.modify_of _ (le_refl 0) (by omega), ok_bind]
  obtain ⟨rows1, h1, h2, h3⟩ := rowPointers_of (a := a) (p := p) (n := n) (total := pm.get n) h.rows hr (by rw [hp]) hlen
  rw [h1, ok_bind]
  obtain ⟨⟨rows2, a2⟩, h4, hf⟩ := foldlM_span (fun col s => FormInv a p m n jumbled rows am col (p col) s) (rowFormColumn jumbled pm) 0 n
    n.toNat (by omega) (rows1, am) (by
      refine ⟨h2, rfl, fun r r0 rm => ?_, fun r r0 rm => ?_, fun _ r r0 rm => ?_, fun _ _ => rfl, fun r c _ _ _ hc _ => ?_⟩
      · show (rows1.get r).start = _ ∧ (rows1.get r).length = _
        rw [h3 r r0 rm]; exact ⟨rfl, rfl⟩
      · show (rows1.get r).degree = _
        rw [h3 r r0 rm]
        simp [seenRows_self, rowSlot, rowCols_zero]
      · show (rows1.get r).mark ≤ _ ∧ ((rows1.get r).mark = _ ↔ _)
        rw [h3 r r0 rm]
        simp [seenRows_self]
      · rw [seenRows_self] at hc
        simp at hc
        omega)
    (fun x x0 xn s hs => rowFormColumn_inv h ha hp hpn hj hr hsize hs x0 xn)
  rw [h4, ok_bind]
  simp only
  have hrs2 : rows2.size = rows.size := hf.rsize
  obtain ⟨rows3, h5, h6, h7⟩ := initRows_of rows2 m.toNat (by omega) (fun r => { r with mark := 0, degree := r.length })
  rw [h5, ok_bind]
  refine ⟨rows3, a2, rfl, by omega, hf.asize, fun r r0 rm => ?_, fun x hx => ?_, fun r c r0 rm c0 cn he => hf.slots r c r0 rm c0 (Or.inl cn) he⟩
  · rw [h7, if_pos (by omega)]
    have := hf.start r r0 rm
    simp only at this
    simp only [this]
  · have := hf.low x hx
    simp only at this
    rw [this, ha x hx]

/-- `init_rows_cols` on arrays that pass the checks, sorted. -/
theorem initRowsCols_of (h : ColumnForm a p m n) (hsort : SortedColumns a p n) {b : ColamdBuffers} {stats : ColamdStats}
    (ha : b.a.get = a) (hp : b.head.get = p) (hpn : n < b.head.size) (hr : m ≤ b.rows.size) (hr0 : 0 < b.rows.size) (hc : n ≤ b.cols.size)
    (hsize : 2 * p n ≤ b.a.size) (hi32 : p n < 2 ^ 31) (hst : stats.status ≠ 1) :
    ∃ b', initRowsCols m n b stats = .ok (.ok (b', { stats with info3 := 0 })) ∧ b'.head = b.head ∧ b'.rows.size = b.rows.size ∧
      b'.cols.size = b.cols.size ∧ b'.a.size = b.a.size ∧
      (∀ r, 0 ≤ r → r < m → b'.rows.get r = ⟨rowStart a p n r, (rowCols a p r n).card, (rowCols a p r n).card, 0⟩) ∧
      (∀ c, 0 ≤ c → c < n → b'.cols.get c = ⟨p c, p (c + 1) - p c, 1, 0, -1, -1⟩) ∧
      (∀ x, x < p n → b'.a.get x = a x) ∧
      ∀ r c, 0 ≤ r → r < m → 0 ≤ c → c < n → Entry a p r c → b'.a.get (rowSlot a p n r c) = c := by
  have n0 := h.cols
  have m0 := h.rows
  have hpn0 := h.nonneg n0 (le_refl n)
  unfold initRowsCols
  rw [if_neg (by omega)]
  obtain ⟨cols, h1, h2, h3⟩ := initColumns_of stats b.head b.cols n.toNat (by omega) (by omega)
    (fun c c0 c1 => by rw [hp]; exact h.mono c c0 (by omega))
    (fun c c0 c1 => by
      rw [hp]
      have e1 := h.mono' (show 0 ≤ c + 1 by omega) (show c + 1 ≤ n by omega) (le_refl n)
      have e2 := h.nonneg c0 (by omega)
      omega)
  rw [h1, ok_bind]
  simp only
  have hcols : ∀ c, 0 ≤ c → c < n → cols.get c = ⟨p c, p (c + 1) - p c, 1, 0, -1, -1⟩ := by
    intro c c0 c1
    rw [h3 c, if_pos (by omega), hp]
  obtain ⟨rows, h4, h5, h6⟩ := initRows_of b.rows m.toNat (by omega) (fun r => { r with length := 0, mark := -1 })
  rw [h4, ok_bind]
  obtain ⟨s, g1, g2, g3, g4, g5, g6, g7, -⟩ := scan_of h ha hp (by omega) hpn (rows0 := rows) (cols0 := cols) (stats0 := { stats with info3 := 0 })
    (by omega) (by omega) (fun c c0 c1 => by rw [hcols c c0 c1]) (fun r r0 r1 => by rw [h6 r, if_pos (by omega)]; exact ⟨rfl, rfl⟩)
  rw [g1, ok_bind]
  simp only
  have hstat := g7 hsort
  have hf : (s.stats.status == 1) = false := by rw [hstat]; simpa using hst
  obtain ⟨rows', a', k1, k2, k3, k4, k5, k6⟩ := rowForm_of h (jumbled := false) (rows := s.rows) (am := b.a) (pm := b.head)
    (fun x _ => by rw [ha]) hp hpn (fun _ => hsort) (by omega) (by omega) (by omega) g4
  rw [hf, k1, ok_bind]
  simp only
  rw [if_neg (by rw [hstat]; exact hst), hstat]
  refine ⟨_, rfl, rfl, by simp only; omega, by simp only; omega, k3, k4, fun c c0 c1 => ?_, k5, k6⟩
  show s.cols.get c = _
  rw [g5 c c0 c1, hcols c c0 c1]
  simp only [ColamdCol.mk.injEq, true_and, and_true]
  -- no repetitions in a sorted column
  unfold colRows seenRows
  rw [Finset.card_image_of_injOn, Int.card_Ico]
  · have := h.mono c c0 c1
    omega
  · intro i hi j hj hij
    simp only [Finset.coe_Ico, Set.mem_Ico] at hi hj
    rcases lt_trichotomy i j with hlt | heq | hlt
    · have := hsort c c0 c1 i j hi.1 hlt hj.2
      omega
    · exact heq
    · have := hsort c c0 c1 j i hj.1 hlt hi.2
      omega

end Fiksi
