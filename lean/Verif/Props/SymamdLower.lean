import Verif.Proofs.Symamd
import Verif.Model.ColamdApi
import Mathlib.Tactic.IntervalCases
/-!
# C79: `symamd` looks at the strictly lower part only
-/
namespace Fiksi

/-- Column `c` of a matrix given by row indices and column pointers. -/
def Spec.column (rows pointers : List Int) (c : Nat) : List Int :=
  (rows.take (pointers.getD (c + 1) 0).toNat).drop (pointers.getD c 0).toNat

/-- The rows below the diagonal in column `c`, each where it first occurs. -/
def Spec.lowerRows (rows pointers : List Int) (c : Nat) : List Int :=
  ((Spec.column rows pointers c).filter fun r => decide ((c : Int) < r)).eraseDups

open Spec

/-- The cells of a slice as a list. -/
theorem map_span_ofList {l : List Int} {s t : Nat} (h : s ≤ t) (ht : t ≤ l.length) :
    (span s (t - s)).map (Mem.ofList l 0).get = (l.take t).drop s := by
  refine List.ext_getElem (by simp [span]; omega) fun i h1 h2 => ?_
  simp only [List.length_drop, List.length_take] at h2
  simp only [span, List.map_map, List.getElem_map, List.getElem_range, Function.comp_apply, List.getElem_drop, List.getElem_take]
  rw [show ((s : Int) + (i : Int)) = ((s + i : Nat) : Int) by push_cast; ring, Mem.ofList_get, List.getD_eq_getElem?_getD,
    List.getElem?_eq_getElem (by omega)]
  rfl

/-- The distinct lower entries of a column are the first occurrences of its rows below the diagonal. -/
theorem lowerColumn_eq {a p : Int → Int} {j : Int} (k : Nat) :
    lowerColumn a p j (p j + k) = ((((span (p j) k).map a).filter fun r => decide (j < r)).eraseDups).map (·, j) := by
  induction k with
  | zero => simp [lowerColumn_self, span_zero]
  | succ k ih =>
    push_cast
    rw [← add_assoc, lowerColumn_succ (by omega), ih, span_succ, List.map_append, List.filter_append, List.eraseDups_append, List.map_append]
    congr 1
    have hmem : a (p j + k) ∈ seenRows a p j (p j + k) ↔ a (p j + k) ∈ (span (p j) k).map a := by
      unfold seenRows span
      simp only [Finset.mem_image, Finset.mem_Ico, List.mem_map, List.mem_range, exists_exists_and_eq_and]
      constructor
      · rintro ⟨y, hy, e⟩
        exact ⟨(y - p j).toNat, by omega, by rw [show p j + ((y - p j).toNat : Int) = y by omega]; exact e⟩
      · rintro ⟨y, hy, e⟩
        exact ⟨p j + y, by omega, e⟩
    by_cases hj : j < a (p j + k)
    · by_cases hin : a (p j + k) ∈ (span (p j) k).map a
      · rw [if_neg (fun hn => hn.2 (hmem.2 hin))]
        simp only [List.map_cons, List.map_nil, hj, decide_true, List.filter_cons_of_pos, List.filter_nil]
        rw [List.removeAll, List.filter_cons_of_neg]
        · rfl
        · simpa [hj] using hin
      · rw [if_pos ⟨hj, fun hn => hin (hmem.1 hn)⟩]
        simp only [List.map_cons, List.map_nil, hj, decide_true, List.filter_cons_of_pos, List.filter_nil]
        rw [List.removeAll, List.filter_cons_of_pos]
        · rfl
        · simpa [hj] using hin
    · rw [if_neg (fun hn => hj hn.1)]
      simp [hj, List.removeAll]

/-- The distinct lower entries, column by column. -/
theorem allLower_eq {n : Int} {l q : List Int} (h : ColumnForm (Mem.ofList l 0).get (Mem.ofList q 0).get n n)
    (hlen : (Mem.ofList q 0).get n ≤ l.length) :
    allLower (Mem.ofList l 0).get (Mem.ofList q 0).get n = (List.range n.toNat).flatMap fun c => (lowerRows l q c).map (·, (c : Int)) := by
  unfold allLower lowerEntries
  rw [lowerColumn_self, List.append_nil]
  unfold span
  rw [List.flatMap_map]
  refine List.flatMap_congr fun c hc => ?_
  rw [List.mem_range] at hc
  have hm := h.mono c (by omega) (by omega)
  have h0 := h.nonneg (c := c) (by omega) (by omega)
  have h1 := h.mono' (c := (c : Int) + 1) (d := n) (by omega) (by omega) (le_refl n)
  have g0 : (Mem.ofList q 0).get (c : Int) = q.getD c 0 := Mem.ofList_get _ _ _
  have g1 : (Mem.ofList q 0).get ((c : Int) + 1) = q.getD (c + 1) 0 := Mem.ofList_get q 0 (c + 1)
  rw [zero_add]
  have := lowerColumn_eq (a := (Mem.ofList l 0).get) (p := (Mem.ofList q 0).get) (j := c)
    ((Mem.ofList q 0).get (c + 1) - (Mem.ofList q 0).get c).toNat
  rw [show (Mem.ofList q 0).get (c : Int) + (((Mem.ofList q 0).get (c + 1) - (Mem.ofList q 0).get c).toNat : Int) =
    (Mem.ofList q 0).get (c + 1) by omega] at this
  rw [this]
  unfold lowerRows column
  rw [g0] at h0 hm
  rw [g1] at h1 hm
  rw [g0, g1]
  rw [← map_span_ofList (s := (q.getD c 0).toNat) (t := (q.getD (c + 1) 0).toNat) (by omega) (by omega),
    show (((q.getD c 0).toNat : Nat) : Int) = q.getD c 0 by omega,
    show (q.getD (c + 1) 0).toNat - (q.getD c 0).toNat = (q.getD (c + 1) 0 - q.getD c 0).toNat by omega]

/-- Two memories with the same cells are the same slice. -/
theorem toList_congr {m m' : Mem Int} (hs : m.size = m'.size) (h : ∀ i : Int, 0 ≤ i → i < m.size → m.get i = m'.get i) : m.toList = m'.toList := by
  unfold Mem.toList
  rw [hs]
  refine List.map_congr_left fun i hi => h i (by omega) ?_
  rw [List.mem_range] at hi
  omega

/-- Every position before the end is a slot. -/
theorem exists_slot {n : Int} {L : List (Int × Int)} {i : Int} (n0 : 0 ≤ n) (i0 : 0 ≤ i) (hi : i < symStart L n) :
    ∃ y k, 0 ≤ y ∧ touches L y k ∧ symSlot L y k = i := by
  have key : ∀ k : Nat, i < symStart L k → ∃ c, 0 ≤ c ∧ symStart L c ≤ i ∧ i < symStart L (c + 1) := by
    intro k
    induction k with
    | zero => intro hk; rw [Nat.cast_zero, symStart_zero] at hk; omega
    | succ k ih =>
      intro hik
      push_cast at hik
      by_cases hlt : i < symStart L k
      · exact ih hlt
      · exact ⟨k, by omega, by omega, hik⟩
  obtain ⟨c, c0, e1, e2⟩ := key n.toNat (by rwa [show ((n.toNat : Nat) : Int) = n by omega])
  rw [symStart_succ L c0] at e2
  obtain ⟨k, _, ht, e3⟩ := count_surjective (P := touches L c) (N := L.length) (k := (i - symStart L c).toNat) (by unfold touchCount at e2; omega)
  exact ⟨c, k, c0, ht, by unfold symSlot touchCount; omega⟩

/-- The matrix `M` is a function of the list of lower entries. -/
theorem symamdMatrix_lower {n : Int} {l l' q q' perm perm' : List Int}
    (h : ColumnForm (Mem.ofList l 0).get (Mem.ofList q 0).get n n) (h' : ColumnForm (Mem.ofList l' 0).get (Mem.ofList q' 0).get n n)
    (hn : n + 1 < 2 ^ 31) (hq : q.length = n.toNat + 1) (hq' : q'.length = n.toNat + 1)
    (hperm : perm.length = n.toNat + 1) (hperm' : perm'.length = n.toNat + 1)
    (hlen : (Mem.ofList q 0).get n ≤ l.length) (hlen' : (Mem.ofList q' 0).get n ≤ l'.length)
    (hi32 : (Mem.ofList q 0).get n < 2 ^ 30) (hi32' : (Mem.ofList q' 0).get n < 2 ^ 31)
    (heq : allLower (Mem.ofList l 0).get (Mem.ofList q 0).get n = allLower (Mem.ofList l' 0).get (Mem.ofList q' 0).get n) :
    symamdMatrix n l q perm = symamdMatrix n l' q' perm' := by
  have hL := allLower_length h
  obtain ⟨m, r, h1, h2, h3, h4, h5, h6⟩ := symamdMatrix_of h hn hq hperm rfl hlen (by omega) (by omega)
  obtain ⟨m', r', g1, g2, g3, g4, g5, g6⟩ := symamdMatrix_of h' hn hq' hperm' rfl hlen' (by omega) (by rw [← heq]; omega)
  rw [h1, g1]
  rw [← heq] at g2 g4 g5 g6 ⊢
  have n0 := h.cols
  have hm : m.toList = m'.toList := by
    refine toList_congr (Option.some.inj (h2.symm.trans g2)) fun i i0 _ => ?_
    by_cases hi : i < symStart (allLower (Mem.ofList l 0).get (Mem.ofList q 0).get n) n
    · obtain ⟨y, k, y0, ht, rfl⟩ := exists_slot n0 i0 hi
      rw [h5 y k y0 ht, g5 y k y0 ht]
    · rw [h6 i (by omega), g6 i (by omega)]
  have hr : r.toList = r'.toList := toList_congr (h3.trans g3.symm) fun i i0 i1 => by rw [h4 i i0 (by omega), g4 i i0 (by omega)]
  rw [hm, hr]

section
variable {F : Type} [Add F] [Sub F] [Mul F] [Div F] [Neg F] [Zero F] [One F] [FloatOps F]

/-- C79: two square matrices with the same rows below the diagonal in every column get the same result from `symamd`: the same statistics
and the same permutation. The diagonal, the entries above it, repeated entries, and what the slice for the permutation held before the
call make no difference. -/
theorem C79_lower (cast : F → Int) (options : ColamdOptions F) {n : Int} {l l' q q' perm perm' : List Int}
    (h : ColumnForm (Mem.ofList l 0).get (Mem.ofList q 0).get n n) (h' : ColumnForm (Mem.ofList l' 0).get (Mem.ofList q' 0).get n n)
    (hn : n + 1 < 2 ^ 31) (hq : q.length = n.toNat + 1) (hq' : q'.length = n.toNat + 1)
    (hperm : perm.length = n.toNat + 1) (hperm' : perm'.length = n.toNat + 1)
    (hlen : (Mem.ofList q 0).get n ≤ l.length) (hlen' : (Mem.ofList q' 0).get n ≤ l'.length)
    (hi32 : (Mem.ofList q 0).get n < 2 ^ 30) (hi32' : (Mem.ofList q' 0).get n < 2 ^ 31)
    (heq : ∀ c : Nat, (c : Int) < n → lowerRows l q c = lowerRows l' q' c) :
    symamd cast options n l q perm = symamd cast options n l' q' perm' := by
  have hall : allLower (Mem.ofList l 0).get (Mem.ofList q 0).get n = allLower (Mem.ofList l' 0).get (Mem.ofList q' 0).get n := by
    rw [allLower_eq h hlen, allLower_eq h' hlen']
    refine List.flatMap_congr fun c hc => ?_
    rw [List.mem_range] at hc
    rw [heq c (by omega)]
  have hM := symamdMatrix_lower h h' hn hq hq' hperm hperm' hlen hlen' hi32 hi32' hall
  unfold symamd symamdMain assertPointers
  rw [hM, hq, hq', hperm, hperm']

end

/-- The two matrices of the documentation of `symamd` (`lib.rs:158-200`): the whole symmetric matrix, and its strictly lower part. -/
example : ColumnForm (Mem.ofList [0, 1, 0, 2, 3, 1, 1, 4, 3] 0).get (Mem.ofList [0, 2, 5, 6, 8, 9] 0).get 5 5 where
  rows := by decide
  cols := by decide
  first := rfl
  mono := by intro c h0 h1; interval_cases c <;> decide +kernel
  bound := by
    intro i h0 h1
    have : (Mem.ofList [0, 2, 5, 6, 8, 9] 0).get 5 = (9 : Int) := by decide +kernel
    rw [this] at h1
    interval_cases i <;> decide +kernel

example : ColumnForm (Mem.ofList [1, 2, 3, 4] 0).get (Mem.ofList [0, 1, 3, 3, 4, 4] 0).get 5 5 where
  rows := by decide
  cols := by decide
  first := rfl
  mono := by intro c h0 h1; interval_cases c <;> decide +kernel
  bound := by
    intro i h0 h1
    have : (Mem.ofList [0, 1, 3, 3, 4, 4] 0).get 5 = (4 : Int) := by decide +kernel
    rw [this] at h1
    interval_cases i <;> decide +kernel

example : (List.range 5).map (lowerRows [0, 1, 0, 2, 3, 1, 1, 4, 3] [0, 2, 5, 6, 8, 9]) = [[1], [2, 3], [], [4], []] ∧
    (List.range 5).map (lowerRows [1, 2, 3, 4] [0, 1, 3, 3, 4, 4]) = [[1], [2, 3], [], [4], []] := by decide +kernel

end Fiksi
