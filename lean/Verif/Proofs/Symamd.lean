import Verif.Proofs.ColamdRows
import Mathlib.Data.Nat.Count
/-! # The matrix that `symamd` orders -/
namespace Fiksi
open Spec

variable {a p : Int → Int} {n : Int}

/-! ## Lists by rank -/

theorem count_surjective {P : Nat → Bool} {N k : Nat} (h : k < Nat.count (fun x => P x) N) : ∃ c, c < N ∧ P c ∧ Nat.count (fun x => P x) c = k := by
  induction N with
  | zero => simp at h
  | succ N ih =>
    rw [Nat.count_succ] at h
    by_cases hlt : k < Nat.count (fun x => P x) N
    · obtain ⟨c, h1, h2, h3⟩ := ih hlt
      exact ⟨c, by omega, h2, h3⟩
    · by_cases hp : P N
      · rw [if_pos hp] at h
        exact ⟨N, by omega, hp, by omega⟩
      · rw [if_neg hp] at h
        omega

theorem count_lt {P : Nat → Bool} {k l : Nat} (h : k < l) (hk : P k) : Nat.count (fun x => P x) k < Nat.count (fun x => P x) l := by
  have h1 : Nat.count (fun x => P x) (k + 1) = Nat.count (fun x => P x) k + 1 := by rw [Nat.count_succ, if_pos hk]
  have h2 := Nat.count_monotone (fun x => P x = true) (show k + 1 ≤ l by omega)
  omega

/-- Cells addressed by rank list a set. -/
theorem lists_of_count {P : Nat → Bool} {N : Nat} {f : Int → Int} {start : Int}
    (h : ∀ k, k < N → P k → f (start + Nat.count (fun x => P x) k) = k) :
    Lists f start (Nat.count (fun x => P x) N) (fun c => ∃ k : Nat, k < N ∧ P k ∧ c = k) := by
  have key : ∀ i, start ≤ i → i < start + Nat.count (fun x => P x) N → ∃ k : Nat, k < N ∧ P k ∧ f i = k ∧ i = start + Nat.count (fun x => P x) k := by
    intro i h1 h2
    obtain ⟨c, hc, hp, hk⟩ := count_surjective (P := P) (N := N) (k := (i - start).toNat) (by omega)
    have hi : i = start + Nat.count (fun x => P x) c := by omega
    exact ⟨c, hc, hp, by rw [hi]; exact h c hc hp, hi⟩
  refine ⟨by omega, fun i j hi hij hj => ?_, fun c => ⟨?_, ?_⟩⟩
  · obtain ⟨k, _, hk, hfk, hik⟩ := key i hi (by omega)
    obtain ⟨l, _, hl, hfl, hjl⟩ := key j (by omega) hj
    rw [hfk, hfl]
    by_contra hlt
    have := Nat.count_monotone (fun x => P x = true) (show l ≤ k by omega)
    omega
  · rintro ⟨k, hk, hp, rfl⟩
    exact ⟨_, by omega, by have := count_lt hk hp; omega, h k hk hp⟩
  · rintro ⟨i, h1, h2, rfl⟩
    obtain ⟨k, hk, hp, hf, _⟩ := key i h1 h2
    exact ⟨k, hk, hp, hf⟩

/-! ## The lower entries -/

/-- Position `x` of column `j` is the first occurrence of a strictly lower entry. -/
def newLower (a p : Int → Int) (j x : Int) : Prop := j < a x ∧ a x ∉ seenRows a p j x

instance (j x : Int) : Decidable (newLower a p j x) := by unfold newLower; infer_instance

/-- The distinct strictly lower entries of column `j` before position `x`. -/
def lowerColumn (a p : Int → Int) (j x : Int) : List (Int × Int) :=
  (span (p j) (x - p j).toNat).filterMap fun y => if newLower a p j y then some (a y, j) else none

/-- The distinct strictly lower entries before position `x` of column `j`. -/
def lowerEntries (a p : Int → Int) (j x : Int) : List (Int × Int) :=
  (span 0 j.toNat).flatMap (fun c => lowerColumn a p c (p (c + 1))) ++ lowerColumn a p j x

theorem lowerColumn_self (j : Int) : lowerColumn a p j (p j) = [] := by simp [lowerColumn, span_zero]

theorem lowerColumn_succ {j x : Int} (h : p j ≤ x) :
    lowerColumn a p j (x + 1) = lowerColumn a p j x ++ if newLower a p j x then [(a x, j)] else [] := by
  unfold lowerColumn
  rw [show (x + 1 - p j).toNat = (x - p j).toNat + 1 by omega, span_succ, List.filterMap_append, show p j + ((x - p j).toNat : Int) = x by omega]
  congr 1
  by_cases hn : newLower a p j x <;> simp [hn]

theorem lowerEntries_succ {j x : Int} (h : p j ≤ x) :
    lowerEntries a p j (x + 1) = lowerEntries a p j x ++ if newLower a p j x then [(a x, j)] else [] := by
  unfold lowerEntries
  rw [lowerColumn_succ h, List.append_assoc]

theorem lowerEntries_next {j : Int} (h : 0 ≤ j) : lowerEntries a p (j + 1) (p (j + 1)) = lowerEntries a p j (p (j + 1)) := by
  unfold lowerEntries
  rw [lowerColumn_self, List.append_nil, show (j + 1).toNat = j.toNat + 1 by omega, span_succ, List.flatMap_append, zero_add,
    show ((j.toNat : Nat) : Int) = j by omega]
  simp

theorem mem_lowerColumn {j x : Int} {q : Int × Int} : q ∈ lowerColumn a p j x ↔ q.2 = j ∧ j < q.1 ∧ q.1 ∈ seenRows a p j x := by
  obtain ⟨i, c⟩ := q
  by_cases hx : p j ≤ x
  · obtain ⟨k, rfl⟩ : ∃ k : Nat, x = p j + k := ⟨(x - p j).toNat, by omega⟩
    clear hx
    induction k with
    | zero => simp [lowerColumn_self, seenRows_self]
    | succ k ih =>
      push_cast
      rw [← add_assoc, lowerColumn_succ (by omega), List.mem_append, ih, seenRows_succ _ _ (by omega), Finset.mem_insert]
      by_cases hn : newLower a p j (p j + k)
      · rw [if_pos hn]
        simp only [List.mem_singleton, Prod.mk.injEq]
        unfold newLower at hn
        constructor
        · rintro (⟨h1, h2, h3⟩ | ⟨h1, h2⟩)
          · exact ⟨h1, h2, Or.inr h3⟩
          · subst h1; exact ⟨h2, hn.1, Or.inl rfl⟩
        · rintro ⟨h1, h2, h3 | h3⟩
          · exact Or.inr ⟨h3, h1⟩
          · exact Or.inl ⟨h1, h2, h3⟩
      · rw [if_neg hn]
        simp only [List.not_mem_nil, or_false]
        constructor
        · rintro ⟨h1, h2, h3⟩; exact ⟨h1, h2, Or.inr h3⟩
        · rintro ⟨h1, h2, h3 | h3⟩
          · refine ⟨h1, h2, ?_⟩
            by_contra hc
            subst h3
            exact hn ⟨h2, hc⟩
          · exact ⟨h1, h2, h3⟩
  · have h1 : lowerColumn a p j x = [] := by
      unfold lowerColumn
      rw [show (x - p j).toNat = 0 by omega]
      rfl
    have h2 : seenRows a p j x = ∅ := by
      unfold seenRows
      rw [Finset.Ico_eq_empty (by omega), Finset.image_empty]
    simp [h1, h2]

theorem lowerColumn_nodup (j x : Int) : (lowerColumn a p j x).Nodup := by
  by_cases hx : p j ≤ x
  · obtain ⟨k, rfl⟩ : ∃ k : Nat, x = p j + k := ⟨(x - p j).toNat, by omega⟩
    clear hx
    induction k with
    | zero => simp [lowerColumn_self]
    | succ k ih =>
      push_cast
      rw [← add_assoc, lowerColumn_succ (by omega)]
      by_cases hn : newLower a p j (p j + k)
      · rw [if_pos hn, List.nodup_append]
        refine ⟨ih, by simp, fun q hq r hr => ?_⟩
        simp only [List.mem_singleton] at hr
        subst hr
        rintro rfl
        rw [mem_lowerColumn] at hq
        exact hn.2 hq.2.2
      · rw [if_neg hn, List.append_nil]
        exact ih
  · have h1 : lowerColumn a p j x = [] := by
      unfold lowerColumn
      rw [show (x - p j).toNat = 0 by omega]
      rfl
    simp [h1]

/-- All distinct strictly lower entries. -/
def allLower (a p : Int → Int) (n : Int) : List (Int × Int) := lowerEntries a p n (p n)

theorem mem_allLower {i j : Int} : (i, j) ∈ allLower a p n ↔ (0 ≤ j ∧ j < n) ∧ j < i ∧ Entry a p i j := by
  unfold allLower lowerEntries
  rw [lowerColumn_self, List.append_nil, List.mem_flatMap]
  constructor
  · rintro ⟨c, hc, hm⟩
    rw [mem_span] at hc
    rw [mem_lowerColumn] at hm
    obtain ⟨h1, h2, h3⟩ := hm
    subst h1
    exact ⟨by omega, h2, mem_colRows.1 h3⟩
  · rintro ⟨h1, h2, h3⟩
    refine ⟨j, mem_span.2 (by omega), mem_lowerColumn.2 ⟨rfl, h2, mem_colRows.2 h3⟩⟩

theorem allLower_nodup : (allLower a p n).Nodup := by
  unfold allLower lowerEntries
  rw [lowerColumn_self, List.append_nil, List.nodup_flatMap]
  refine ⟨fun c _ => lowerColumn_nodup _ _, ?_⟩
  unfold span
  rw [List.pairwise_map]
  refine List.pairwise_lt_range.imp ?_
  intro c d hcd
  simp only [Function.onFun]
  intro q hq hq'
  rw [mem_lowerColumn] at hq hq'
  omega

theorem lowerEntries_prefix (h : ∀ c, 0 ≤ c → c < n → p c ≤ p (c + 1)) {j x : Int} (j0 : 0 ≤ j) (hj : j < n) (h2 : x ≤ p (j + 1)) :
    lowerEntries a p j x <+: allLower a p n := by
  -- to the end of the column
  have step1 : lowerEntries a p j x <+: lowerEntries a p j (p (j + 1)) := by
    by_cases hx : p j ≤ x
    · obtain ⟨k, hk⟩ : ∃ k : Nat, p (j + 1) = x + k := ⟨(p (j + 1) - x).toNat, by omega⟩
      rw [hk]
      clear hk h2
      induction k with
      | zero => simp
      | succ k ih =>
        push_cast
        rw [← add_assoc, lowerEntries_succ (by omega)]
        exact ih.trans (List.prefix_append _ _)
    · have h1 : lowerColumn a p j x = [] := by
        unfold lowerColumn
        rw [show (x - p j).toNat = 0 by omega]
        rfl
      unfold lowerEntries
      rw [h1, List.append_nil]
      exact List.prefix_append _ _
  have step2 : ∀ k : Nat, j + 1 + k ≤ n → lowerEntries a p (j + 1) (p (j + 1)) <+: lowerEntries a p (j + 1 + k) (p (j + 1 + k)) := by
    intro k
    induction k with
    | zero => intro _; simp
    | succ k ih =>
      intro hk
      push_cast at hk ⊢
      refine (ih (by omega)).trans ?_
      rw [show j + 1 + ((k : Int) + 1) = j + 1 + k + 1 by ring, lowerEntries_next (by omega)]
      unfold lowerEntries
      rw [lowerColumn_self, List.append_nil]
      exact List.prefix_append _ _
  rw [← lowerEntries_next j0] at step1
  refine step1.trans ?_
  have := step2 (n - (j + 1)).toNat (by omega)
  rw [show j + 1 + ((n - (j + 1)).toNat : Int) = n by omega] at this
  exact this

theorem lowerColumn_length {j x : Int} (h : p j ≤ x) : ((lowerColumn a p j x).length : Int) ≤ x - p j := by
  have := List.length_filterMap_le (fun y => if newLower a p j y then some (a y, j) else none) (span (p j) (x - p j).toNat)
  rw [span_length] at this
  unfold lowerColumn
  omega

theorem allLower_length (h : ColumnForm a p n n) : ((allLower a p n).length : Int) ≤ p n := by
  have key : ∀ k : Nat, (k : Int) ≤ n → (((span 0 k).flatMap (fun c => lowerColumn a p c (p (c + 1)))).length : Int) ≤ p k := by
    intro k
    induction k with
    | zero => intro _; simp [span_zero, h.first]
    | succ k ih =>
      intro hk
      push_cast at hk ⊢
      have h1 := ih (by omega)
      have h2 := lowerColumn_length (a := a) (h.mono k (by omega) (by omega))
      rw [span_succ, List.flatMap_append, List.length_append, zero_add]
      simp only [List.flatMap_cons, List.flatMap_nil, List.append_nil]
      push_cast
      omega
  unfold allLower lowerEntries
  rw [lowerColumn_self, List.append_nil]
  have := key n.toNat (by have := h.cols; omega)
  rwa [show ((n.toNat : Nat) : Int) = n by have := h.cols; omega] at this

/-- Row `k` of `M` touches column `x`. -/
def touches (L : List (Int × Int)) (x : Int) (k : Nat) : Bool :=
  match L[k]? with
  | some q => decide (q.1 = x ∨ q.2 = x)
  | none => false

theorem touches_iff {L : List (Int × Int)} {x : Int} {k : Nat} : touches L x k = true ↔ ∃ i j, L[k]? = some (i, j) ∧ (x = i ∨ x = j) := by
  unfold touches
  cases hk : L[k]? with
  | none => simp
  | some q =>
    obtain ⟨i, j⟩ := q
    simp only [decide_eq_true_eq, Option.some.injEq, Prod.mk.injEq]
    constructor
    · rintro (h | h)
      · exact ⟨i, j, ⟨rfl, rfl⟩, Or.inl h.symm⟩
      · exact ⟨i, j, ⟨rfl, rfl⟩, Or.inr h.symm⟩
    · rintro ⟨_, _, ⟨rfl, rfl⟩, h | h⟩
      · exact Or.inl h.symm
      · exact Or.inr h.symm

/-- The number of rows below `k` that touch column `x`. -/
def touchCount (L : List (Int × Int)) (x : Int) (k : Nat) : Nat := Nat.count (fun y => touches L x y) k

theorem touchCount_succ {L : List (Int × Int)} {x : Int} {k : Nat} {i j : Int} (h : L[k]? = some (i, j)) :
    touchCount L x (k + 1) = touchCount L x k + if x = i ∨ x = j then 1 else 0 := by
  unfold touchCount
  rw [Nat.count_succ]
  congr 1
  by_cases hx : x = i ∨ x = j
  · rw [if_pos hx, if_pos (touches_iff.2 ⟨i, j, h, hx⟩)]
  · rw [if_neg hx, if_neg]
    rw [touches_iff]
    rintro ⟨i', j', h', hx'⟩
    rw [h] at h'
    cases h'
    exact hx hx'

/-- Every row touches two columns. -/
theorem touchCount_total {L : List (Int × Int)} (h : ∀ q ∈ L, (0 ≤ q.2 ∧ q.2 < q.1) ∧ q.1 < n) {k : Nat} (hk : k ≤ L.length) :
    ∑ x ∈ Finset.Ico 0 n, touchCount L x k = 2 * k := by
  induction k with
  | zero => simp [touchCount]
  | succ k ih =>
    have hlt : k < L.length := by omega
    have hq := h L[k] (List.getElem_mem hlt)
    have hk' : L[k]? = some (L[k].1, L[k].2) := by rw [List.getElem?_eq_getElem hlt]
    have : ∀ x ∈ Finset.Ico (0 : Int) n, touchCount L x (k + 1) = touchCount L x k + if x = L[k].1 ∨ x = L[k].2 then 1 else 0 :=
      fun x _ => touchCount_succ hk'
    rw [Finset.sum_congr rfl this, Finset.sum_add_distrib, ih (by omega), Finset.sum_ite, Finset.sum_const_zero, add_zero, ← Finset.card_eq_sum_ones]
    have hf : (Finset.Ico (0 : Int) n).filter (fun x => x = L[k].1 ∨ x = L[k].2) = {L[k].1, L[k].2} := by
      ext x
      simp only [Finset.mem_filter, Finset.mem_Ico, Finset.mem_insert, Finset.mem_singleton]
      constructor
      · exact fun hx => hx.2
      · intro hx
        refine ⟨?_, hx⟩
        rcases hx with rfl | rfl <;> omega
    rw [hf, Finset.card_pair (by omega)]
    ring

/-! ## The count -/

theorem ofList_read {l : List Int} {i : Int} (h0 : 0 ≤ i) (h1 : i < l.length) : (Mem.ofList l 0).read i = .ok ((Mem.ofList l 0).get i) :=
  Mem.read_of h0 (by simpa using h1)

/-- The state of the count in column `j` before position `x`. -/
structure SymCountInv (a p : Int → Int) (n : Int) (stats0 : ColamdStats) (j x : Int) (s : SymCount) : Prop where
  csize : s.count.size = n.toNat + 1
  msize : s.mark.size = n.toNat + 1
  count : ∀ y, 0 ≤ y → y < n → s.count.get y = touchCount (allLower a p n) y (lowerEntries a p j x).length
  mark : ∀ y, 0 ≤ y → y < n → s.mark.get y ≤ j ∧ (s.mark.get y = j ↔ y ∈ seenRows a p j x)
  last : if x = p j then s.lastRow = -1 else s.lastRow = a (x - 1)
  jumbled : s.stats.status = 1 ∨ s.stats = stats0 ∧ (∀ c, 0 ≤ c → c < j → Increasing a (p c) (p (c + 1))) ∧ Increasing a (p j) x

/-- The next new entry is in the list. -/
theorem next_lower (h : ColumnForm a p n n) {j x : Int} (j0 : 0 ≤ j) (jn : j < n) (h1 : p j ≤ x) (h2 : x < p (j + 1)) (hn : newLower a p j x) :
    (allLower a p n)[(lowerEntries a p j x).length]? = some (a x, j) ∧
      (lowerEntries a p j (x + 1)).length = (lowerEntries a p j x).length + 1 := by
  have hs := lowerEntries_succ (a := a) h1
  rw [if_pos hn] at hs
  refine ⟨?_, by rw [hs, List.length_append]; rfl⟩
  obtain ⟨t, ht⟩ := lowerEntries_prefix (a := a) h.mono j0 jn (show x + 1 ≤ p (j + 1) by omega)
  rw [← ht, hs, List.append_assoc, List.getElem?_append_right (by omega), Nat.sub_self]
  rfl

theorem symCountEntry_inv (h : ColumnForm a p n n) {l : List Int} (hl : (Mem.ofList l 0).get = a) (hlen : p n ≤ l.length)
    {stats0 : ColamdStats} {j x : Int} {s : SymCount} (hs : SymCountInv a p n stats0 j x s) (j0 : 0 ≤ j) (jn : j < n) (h1 : p j ≤ x)
    (h2 : x < p (j + 1)) : ∃ s', symCountEntry n j l s x = .ok (.ok s') ∧ SymCountInv a p n stats0 j (x + 1) s' := by
  obtain ⟨⟨x0, xn⟩, r0, rn⟩ := h.entry j0 jn h1 h2
  obtain ⟨hcs, hms, hcount, hmark, hlast, hjum⟩ := hs
  unfold symCountEntry
  rw [ofList_read x0 (by omega), ok_bind, hl, if_neg (by omega), Mem.read_of r0 (by rw [hms]; omega), ok_bind]
  simp only
  have hinc : Increasing a (p j) x → ¬ (a x ≤ s.lastRow ∨ s.mark.get (a x) = j) → Increasing a (p j) (x + 1) := by
    intro hi hn u v hu huv hv
    by_cases hvx : v < x
    · exact hi u v hu huv hvx
    · have : v = x := by omega
      subst this
      rw [if_neg (by omega)] at hlast
      by_cases hu1 : u = v - 1
      · rw [hu1, ← hlast]; omega
      · have := hi u (v - 1) hu (by omega) (by omega)
        omega
  have hjum' : ∀ st : ColamdStats, st = (if a x ≤ s.lastRow ∨ s.mark.get (a x) = j then
      { s.stats with status := 1, info1 := j, info2 := a x, info3 := s.stats.info3 + 1 } else s.stats) →
      st.status = 1 ∨ st = stats0 ∧ (∀ c, 0 ≤ c → c < j → Increasing a (p c) (p (c + 1))) ∧ Increasing a (p j) (x + 1) := by
    intro st hst
    by_cases hj : a x ≤ s.lastRow ∨ s.mark.get (a x) = j
    · rw [if_pos hj] at hst
      subst hst
      exact Or.inl rfl
    · rw [if_neg hj] at hst
      subst hst
      rcases hjum with hjum | ⟨e1, e2, e3⟩
      · exact Or.inl hjum
      · exact Or.inr ⟨e1, e2, hinc e3 hj⟩
  have hlast' : if x + 1 = p j then a x = -1 else a x = a (x + 1 - 1) := by rw [if_neg (by omega), add_sub_cancel_right]
  have hmark' : ∀ y, 0 ≤ y → y < n → (s.mark.put (a x) j).get y ≤ j ∧ ((s.mark.put (a x) j).get y = j ↔ y ∈ seenRows a p j (x + 1)) := by
    intro y y0 yn
    rw [seenRows_succ _ _ h1, Mem.put_get, Finset.mem_insert]
    split
    · rename_i he; subst he; simp
    · rename_i he
      simp only [he, false_or]
      exact hmark y y0 yn
  have hnew : newLower a p j x ↔ a x > j ∧ s.mark.get (a x) ≠ j := by
    unfold newLower
    rw [Ne, (hmark _ r0 rn).2]
  by_cases hn : newLower a p j x
  · obtain ⟨e1, e2⟩ := next_lower h j0 jn h1 h2 hn
    rw [if_pos (hnew.1 hn)]
    rw [Mem.modify_of _ r0 (by rw [hcs]; omega), ok_bind, Mem.modify_of _ j0 (by rw [Mem.put_size, hcs]; omega), ok_bind,
      Mem.write_of _ r0 (by rw [hms]; omega), ok_bind]
    refine ⟨_, rfl, hcs, hms, fun y y0 yn => ?_, hmark', hlast', hjum' _ rfl⟩
    simp only
    rw [e2, touchCount_succ e1]
    have hne : a x ≠ j := by have := hn.1; omega
    by_cases hy : y = j
    · subst hy
      rw [Mem.put_get_self, Mem.put_get_ne _ _ (Ne.symm hne), hcount y y0 yn, if_pos (Or.inr rfl)]
      push_cast; rfl
    · rw [Mem.put_get_ne _ _ hy]
      by_cases hy' : y = a x
      · rw [hy', Mem.put_get_self, hcount _ r0 rn, if_pos (Or.inl rfl)]
        push_cast; rfl
      · rw [Mem.put_get_ne _ _ hy', hcount y y0 yn, if_neg (by tauto)]
        rfl
  · rw [if_neg (fun hc => hn (hnew.2 hc))]
    simp only [pure_eq_ok, ok_bind]
    rw [Mem.write_of _ r0 (by rw [hms]; omega), ok_bind]
    refine ⟨_, rfl, hcs, hms, fun y y0 yn => ?_, hmark', hlast', hjum' _ rfl⟩
    rw [lowerEntries_succ h1, if_neg hn, List.append_nil]
    exact hcount y y0 yn

theorem symCountColumn_inv (h : ColumnForm a p n n) {l : List Int} {pm : Mem Int} (hl : (Mem.ofList l 0).get = a) (hp : pm.get = p)
    (hlen : p n ≤ l.length) (hpn : n < pm.size) (hi32 : p n < 2 ^ 31) {stats0 : ColamdStats} {j : Int} {s : SymCount}
    (hs : SymCountInv a p n stats0 j (p j) { s with lastRow := -1 }) (j0 : 0 ≤ j) (jn : j < n) :
    ∃ s', symCountColumn n l pm s j = .ok (.ok s') ∧ SymCountInv a p n stats0 (j + 1) (p (j + 1)) { s' with lastRow := -1 } := by
  have hmono := h.mono j j0 jn
  have hle := h.mono' (show 0 ≤ j + 1 by omega) (show j + 1 ≤ n by omega) (le_refl n)
  have h0 := h.nonneg j0 (show j ≤ n by omega)
  unfold symCountColumn
  rw [Mem.read_of (by omega) (by omega), ok_bind, Mem.read_of j0 (by omega), ok_bind, hp, subI32_of (by omega) (by omega), ok_bind,
    if_neg (by omega)]
  have := foldC_span (SymCountInv a p n stats0 j) (fun _ => False) (symCountEntry n j l) (p j) (p (j + 1))
    (p (j + 1) - p j).toNat (by omega) { s with lastRow := -1 } hs (fun x h1 h2 s hs => Or.inl (symCountEntry_inv h hl hlen hs j0 jn h1 h2))
  rcases this with ⟨s', h1, hs'⟩ | ⟨_, _, hf⟩
  · refine ⟨s', h1, hs'.csize, hs'.msize, fun y y0 yn => ?_, fun y y0 yn => ?_, ?_, ?_⟩
    · rw [lowerEntries_next j0]
      exact hs'.count y y0 yn
    · have := (hs'.mark y y0 yn).1
      simp only [seenRows_self, Finset.notMem_empty, iff_false]
      omega
    · simp
    · rcases hs'.jumbled with hj | ⟨e1, e2, e3⟩
      · exact Or.inl hj
      · refine Or.inr ⟨e1, fun c d0 d1 => ?_, fun u v _ _ _ => by omega⟩
        rcases eq_or_ne c j with rfl | hne
        · exact e3
        · exact e2 c d0 (by omega)
  · exact hf.elim

theorem symCount_of (h : ColumnForm a p n n) {l : List Int} {pm : Mem Int} (hl : (Mem.ofList l 0).get = a) (hp : pm.get = p)
    (hlen : p n ≤ l.length) (hpn : n < pm.size) (hi32 : p n < 2 ^ 31) {stats0 : ColamdStats} {count mark : Mem Int}
    (hc : count = ⟨n.toNat + 1, fun _ => 0⟩) (hm : mark = ⟨n.toNat + 1, fun i => if i < n then -1 else 0⟩) :
    ∃ s, foldC (symCountColumn n l pm) (span 0 n.toNat) ⟨count, mark, stats0, -1⟩ = .ok (.ok s) ∧ s.count.size = n.toNat + 1 ∧
      s.mark.size = n.toNat + 1 ∧ (∀ y, 0 ≤ y → y < n → s.count.get y = touchCount (allLower a p n) y (allLower a p n).length) ∧
      (s.stats.status = 1 ∨ s.stats = stats0 ∧ SortedColumns a p n) := by
  have n0 := h.cols
  subst hc hm
  have := foldC_span (fun j (s : SymCount) => SymCountInv a p n stats0 j (p j) { s with lastRow := -1 }) (fun _ => False)
    (symCountColumn n l pm) 0 n n.toNat (by omega) ⟨⟨n.toNat + 1, fun _ => 0⟩, ⟨n.toNat + 1, fun i => if i < n then -1 else 0⟩, stats0, -1⟩ (by
      refine ⟨rfl, rfl, fun y y0 yn => ?_, fun y y0 yn => ?_, ?_, Or.inr ⟨rfl, fun c _ _ => by omega, fun u v _ _ _ => by omega⟩⟩
      · have : lowerEntries a p 0 (p 0) = [] := by simp [lowerEntries, lowerColumn_self, span_zero]
        rw [this]
        simp [touchCount]
      · simp [seenRows_self, yn]
      · simp)
    (fun x h1 h2 s hs => Or.inl (symCountColumn_inv h hl hp hlen hpn hi32 hs h1 h2))
  rcases this with ⟨s, h1, hs⟩ | ⟨_, _, hf⟩
  · refine ⟨s, h1, hs.csize, hs.msize, fun y y0 yn => hs.count y y0 yn, ?_⟩
    rcases hs.jumbled with hj | ⟨e1, e2, _⟩
    · exact Or.inl hj
    · exact Or.inr ⟨e1, e2⟩
  · exact hf.elim

/-! ## The pointers -/

/-- The first position of column `x` of `M`. -/
def symStart (L : List (Int × Int)) (x : Int) : Int := ∑ y ∈ Finset.Ico 0 x, (touchCount L y L.length : Int)

theorem symStart_zero (L : List (Int × Int)) : symStart L 0 = 0 := by simp [symStart]

theorem symStart_succ (L : List (Int × Int)) {x : Int} (h : 0 ≤ x) : symStart L (x + 1) = symStart L x + touchCount L x L.length := by
  simp only [symStart, Ico_right_succ 0 x h, Finset.sum_insert (show x ∉ Finset.Ico 0 x by simp)]
  ring

theorem symStart_mono (L : List (Int × Int)) {x y : Int} (h : x ≤ y) : symStart L x ≤ symStart L y := by
  unfold symStart
  exact Finset.sum_le_sum_of_subset_of_nonneg (fun x hx => by simp only [Finset.mem_Ico] at hx ⊢; omega) (fun _ _ _ => by positivity)

theorem symStart_disjoint (L : List (Int × Int)) {x y : Int} (h : 0 ≤ x) (hxy : x < y) : symStart L x + touchCount L x L.length ≤ symStart L y := by
  rw [← symStart_succ L h]
  exact symStart_mono L (by omega)

theorem symPointers_of {L : List (Int × Int)} {count perm : Mem Int} (n0 : 0 ≤ n) (hc : count.size = n.toNat + 1) (hp : perm.size = n.toNat + 1)
    (hcount : ∀ y, 0 ≤ y → y < n → count.get y = touchCount L y L.length) :
    ∃ perm', (span 1 n.toNat).foldlM (symPointer count) (perm.put 0 0) = .ok perm' ∧ perm'.size = n.toNat + 1 ∧
      ∀ y, 0 ≤ y → y ≤ n → perm'.get y = symStart L y := by
  obtain ⟨perm', h1, h2, h3⟩ := foldlM_span (fun x (q : Mem Int) => q.size = n.toNat + 1 ∧ ∀ y, 0 ≤ y → y < x → q.get y = symStart L y)
    (symPointer count) 1 (n + 1) n.toNat (by omega) (perm.put 0 0) (by
      refine ⟨hp, fun y y0 y1 => ?_⟩
      have : y = 0 := by omega
      subst this
      rw [Mem.put_get_self, symStart_zero]) (by
      rintro x x1 xn q ⟨q1, q2⟩
      unfold symPointer
      rw [Mem.read_of (by omega) (by omega), ok_bind, Mem.read_of (by omega) (by omega), ok_bind, Mem.write_of _ (by omega) (by omega)]
      refine ⟨_, rfl, q1, fun y y0 y1 => ?_⟩
      rcases eq_or_ne y x with rfl | hne
      · rw [Mem.put_get_self, q2 _ (by omega) (by omega), hcount _ (by omega) (by omega)]
        have := symStart_succ L (show 0 ≤ y - 1 by omega)
        rw [sub_add_cancel] at this
        rw [this]
      · rw [Mem.put_get_ne _ _ hne]
        exact q2 y y0 (by omega))
  exact ⟨perm', h1, h2, fun y y0 yn => h3 y y0 (by omega)⟩

/-! ## The construction -/

/-- The position of row `k` in column `x` of `M`. -/
def symSlot (L : List (Int × Int)) (x : Int) (k : Nat) : Int := symStart L x + touchCount L x k

theorem touches_lt {L : List (Int × Int)} {x : Int} {k : Nat} (h : touches L x k) : k < L.length := by
  rw [touches_iff] at h
  obtain ⟨i, j, h, _⟩ := h
  exact (List.getElem?_eq_some_iff.1 h).1

theorem symSlot_lt {L : List (Int × Int)} {x : Int} {k : Nat} (h : touches L x k) : symSlot L x k < symStart L x + touchCount L x L.length := by
  have : touchCount L x k < touchCount L x L.length := count_lt (P := touches L x) (touches_lt h) h
  unfold symSlot
  omega

theorem symSlot_injective {L : List (Int × Int)} {x y : Int} {k l : Nat} (x0 : 0 ≤ x) (y0 : 0 ≤ y) (hk : touches L x k) (hl : touches L y l)
    (h : symSlot L x k = symSlot L y l) : x = y ∧ k = l := by
  have h1 := symSlot_lt hk
  have h2 := symSlot_lt hl
  have hb : ∀ x k, symStart L x ≤ symSlot L x k := fun x k => by unfold symSlot; omega
  have h3 := hb x k
  have h4 := hb y l
  have hxy : x = y := by
    rcases lt_trichotomy x y with hlt | heq | hlt
    · have := symStart_disjoint L x0 hlt; omega
    · exact heq
    · have := symStart_disjoint L y0 hlt; omega
  subst hxy
  refine ⟨rfl, ?_⟩
  unfold symSlot at h
  rcases lt_trichotomy k l with hlt | heq | hlt
  · have : touchCount L x k < touchCount L x l := count_lt (P := touches L x) hlt hk
    omega
  · exact heq
  · have : touchCount L x l < touchCount L x k := count_lt (P := touches L x) hlt hl
    omega

/-- The state of the construction in column `j` before position `x`. -/
structure SymBuildInv (a p : Int → Int) (n : Int) (jumbled : Bool) (len : Nat) (j x : Int) (s : SymBuild) : Prop where
  csize : s.count.size = n.toNat + 1
  ksize : s.mark.size = n.toNat + 1
  msize : s.m.size = len
  k : s.k = (lowerEntries a p j x).length
  count : ∀ y, 0 ≤ y → y < n → s.count.get y = symSlot (allLower a p n) y (lowerEntries a p j x).length
  mark : jumbled = true → ∀ y, 0 ≤ y → y < n → s.mark.get y ≤ j ∧ (j < y → (s.mark.get y = j ↔ y ∈ seenRows a p j x))
  slots : ∀ y k, 0 ≤ y → k < (lowerEntries a p j x).length → touches (allLower a p n) y k → s.m.get (symSlot (allLower a p n) y k) = k
  rest : ∀ z, symStart (allLower a p n) n ≤ z → s.m.get z = 0

theorem symBuildEntry_inv (h : ColumnForm a p n n) {l : List Int} (hl : (Mem.ofList l 0).get = a) (hlen : p n ≤ l.length) {jumbled : Bool}
    {len : Nat} (hm : symStart (allLower a p n) n ≤ len) (hsort : jumbled = false → SortedColumns a p n) {j x : Int} {s : SymBuild}
    (hs : SymBuildInv a p n jumbled len j x s) (j0 : 0 ≤ j) (jn : j < n) (h1 : p j ≤ x) (h2 : x < p (j + 1)) :
    ∃ s', symBuildEntry jumbled j l s x = .ok s' ∧ SymBuildInv a p n jumbled len j (x + 1) s' := by
  obtain ⟨⟨x0, xn⟩, r0, rn⟩ := h.entry j0 jn h1 h2
  obtain ⟨hcs, hks, hms, hk, hcount, hmark, hslots, hrest⟩ := hs
  unfold symBuildEntry
  rw [ofList_read x0 (by omega), ok_bind, hl]
  -- nothing is added
  have hskip : ¬ newLower a p j x → (jumbled = true → ∀ y, 0 ≤ y → y < n → s.mark.get y ≤ j ∧ (j < y → (s.mark.get y = j ↔ y ∈ seenRows a p j (x + 1)))) →
      SymBuildInv a p n jumbled len j (x + 1) s := by
    intro hn hmark'
    have he : lowerEntries a p j (x + 1) = lowerEntries a p j x := by rw [lowerEntries_succ h1, if_neg hn, List.append_nil]
    exact ⟨hcs, hks, hms, by rw [he]; exact hk, by rw [he]; exact hcount, hmark', by rw [he]; exact hslots, hrest⟩
  by_cases hij : a x > j
  · rw [if_pos hij]
    have hread : symMarked jumbled s.mark (a x) = .ok (if jumbled = true then s.mark.get (a x) else -1) := by
      cases jumbled with
      | false => rfl
      | true => exact Mem.read_of r0 (by rw [hks]; omega)
    rw [hread, ok_bind]
    have hnew : newLower a p j x ↔ ¬ (jumbled = true ∧ (if jumbled = true then s.mark.get (a x) else -1) = j) := by
      unfold newLower
      cases jumbled with
      | false =>
        simp only [Bool.false_eq_true, false_and, not_false_iff, iff_true]
        refine ⟨hij, fun hin => ?_⟩
        rw [mem_seenRows] at hin
        obtain ⟨y, hy, hya⟩ := hin
        have := hsort rfl j j0 jn y x hy.1 hy.2 h2
        omega
      | true =>
        simp only [if_true, true_and]
        rw [((hmark rfl _ r0 rn).2 hij)]
        exact ⟨fun hh => hh.2, fun hh => ⟨hij, hh⟩⟩
    by_cases hn : newLower a p j x
    · rw [if_neg (hnew.1 hn)]
      obtain ⟨e1, e2⟩ := next_lower h j0 jn h1 h2 hn
      have hti : touches (allLower a p n) (a x) (lowerEntries a p j x).length := touches_iff.2 ⟨_, _, e1, Or.inl rfl⟩
      have htj : touches (allLower a p n) j (lowerEntries a p j x).length := touches_iff.2 ⟨_, _, e1, Or.inr rfl⟩
      have hne : j ≠ a x := by omega
      have hci := hcount _ r0 rn
      have hcj := hcount _ j0 jn
      have hbound : ∀ y, 0 ≤ y → y < n → touches (allLower a p n) y (lowerEntries a p j x).length →
          0 ≤ symSlot (allLower a p n) y (lowerEntries a p j x).length ∧ symSlot (allLower a p n) y (lowerEntries a p j x).length < len ∧
            symSlot (allLower a p n) y (lowerEntries a p j x).length < symStart (allLower a p n) n := by
        intro y y0 yn ht
        have e3 := symSlot_lt ht
        have e4 := symStart_disjoint (allLower a p n) y0 yn
        have e5 := symStart_mono (allLower a p n) y0
        rw [symStart_zero] at e5
        unfold symSlot at e3 ⊢
        omega
      obtain ⟨bi1, bi2, bi3⟩ := hbound _ r0 rn hti
      obtain ⟨bj1, bj2, bj3⟩ := hbound _ j0 jn htj
      rw [Mem.read_of r0 (by rw [hcs]; omega), ok_bind, hci, Mem.write_of _ bi1 (by rw [hms]; exact bi2), ok_bind,
        Mem.write_of _ r0 (by rw [hcs]; omega), ok_bind, Mem.read_of j0 (by rw [Mem.put_size, hcs]; omega), ok_bind,
        Mem.put_get_ne _ _ hne, hcj, Mem.write_of _ bj1 (by rw [Mem.put_size, hms]; exact bj2), ok_bind,
        Mem.write_of _ j0 (by rw [Mem.put_size, hcs]; omega), ok_bind]
      have hwrite : symMark jumbled s.mark (a x) j =
          .ok (if jumbled = true then s.mark.put (a x) j else s.mark) := by
        cases jumbled with
        | false => rfl
        | true => exact Mem.write_of _ r0 (by rw [hks]; omega)
      rw [hwrite, ok_bind]
      refine ⟨_, rfl, hcs, ?_, hms, ?_, fun y y0 yn => ?_, fun hjt y y0 yn => ?_, fun y k y0 hk' ht => ?_, fun z hz => ?_⟩
      · simp only
        split
        · exact hks
        · exact hks
      · simp only
        rw [e2, hk]
        push_cast
        rfl
      · simp only
        rw [e2]
        unfold symSlot
        rw [touchCount_succ e1]
        by_cases hy : y = j
        · subst hy
          rw [Mem.put_get_self, if_pos (Or.inr rfl)]
          push_cast
          ring
        · rw [Mem.put_get_ne _ _ hy]
          by_cases hy' : y = a x
          · rw [hy', Mem.put_get_self, if_pos (Or.inl rfl)]
            push_cast
            ring
          · rw [Mem.put_get_ne _ _ hy', if_neg (by tauto), hcount y y0 yn]
            rfl
      · simp only [hjt, if_true]
        rw [seenRows_succ _ _ h1, Mem.put_get, Finset.mem_insert]
        split
        · rename_i he; subst he; simp
        · rename_i he
          simp only [he, false_or]
          exact hmark hjt y y0 yn
      · simp only
        rw [e2] at hk'
        by_cases hk'' : k = (lowerEntries a p j x).length
        · subst hk''
          rw [touches_iff] at ht
          obtain ⟨i', j', e3, e4⟩ := ht
          rw [e1] at e3
          cases e3
          rcases e4 with rfl | rfl
          · rw [Mem.put_get]
            split
            · exact hk
            · rw [Mem.put_get_self]; exact hk
          · rw [Mem.put_get_self]; exact hk
        · rw [Mem.put_get_ne, Mem.put_get_ne]
          · exact hslots y k y0 (by omega) ht
          · intro he
            exact hk'' (symSlot_injective y0 r0 ht hti he).2
          · intro he
            exact hk'' (symSlot_injective y0 j0 ht htj he).2
      · simp only
        rw [Mem.put_get_ne _ _ (by omega), Mem.put_get_ne _ _ (by omega)]
        exact hrest z hz
    · rw [if_pos (not_not.1 fun hc => hn (hnew.2 hc))]
      refine ⟨s, rfl, hskip hn fun hjt y y0 yn => ⟨(hmark hjt y y0 yn).1, fun hjy => ?_⟩⟩
      rw [seenRows_succ _ _ h1, Finset.insert_eq_of_mem]
      · exact (hmark hjt y y0 yn).2 hjy
      · by_contra hc
        exact hn ⟨hij, hc⟩
  · rw [if_neg hij]
    refine ⟨s, rfl, hskip (fun hn => hij hn.1) fun hjt y y0 yn => ⟨(hmark hjt y y0 yn).1, fun hjy => ?_⟩⟩
    rw [seenRows_succ _ _ h1, Finset.mem_insert]
    have : y ≠ a x := by omega
    simp only [this, false_or]
    exact (hmark hjt y y0 yn).2 hjy

theorem symBuildColumn_inv (h : ColumnForm a p n n) {l : List Int} {pm : Mem Int} (hl : (Mem.ofList l 0).get = a) (hp : pm.get = p)
    (hlen : p n ≤ l.length) (hpn : n < pm.size) {jumbled : Bool}
    {len : Nat} (hm : symStart (allLower a p n) n ≤ len) (hsort : jumbled = false → SortedColumns a p n) {j : Int} {s : SymBuild}
    (hs : SymBuildInv a p n jumbled len j (p j) s) (j0 : 0 ≤ j) (jn : j < n) :
    ∃ s', symBuildColumn jumbled l pm s j = .ok s' ∧ SymBuildInv a p n jumbled len (j + 1) (p (j + 1)) s' := by
  have hmono := h.mono j j0 jn
  unfold symBuildColumn
  rw [Mem.read_of j0 (by omega), ok_bind, Mem.read_of (by omega) (by omega), ok_bind, hp]
  obtain ⟨s', h1, hs'⟩ := foldlM_span (SymBuildInv a p n jumbled len j) (symBuildEntry jumbled j l) (p j) (p (j + 1))
    (p (j + 1) - p j).toNat (by omega) s hs (fun x h1 h2 s hs => symBuildEntry_inv h hl hlen hm hsort hs j0 jn h1 h2)
  have he := lowerEntries_next (a := a) (p := p) j0
  refine ⟨s', h1, hs'.csize, hs'.ksize, hs'.msize, by rw [he]; exact hs'.k, by rw [he]; exact hs'.count, fun hjt y y0 yn => ?_, by rw [he]; exact hs'.slots, hs'.rest⟩
  have := (hs'.mark hjt y y0 yn).1
  simp only [seenRows_self, Finset.notMem_empty, iff_false]
  omega

theorem toList_get {m : Mem Int} {i : Int} (h0 : 0 ≤ i) (h1 : i < m.size) : (Mem.ofList m.toList 0).get i = m.get i := by
  obtain ⟨k, rfl⟩ : ∃ k : Nat, i = k := ⟨i.toNat, by omega⟩
  rw [Mem.ofList_get, Mem.toList, List.getD_eq_getElem?_getD, List.getElem?_map, List.getElem?_range (by omega)]
  rfl

theorem toList_length {m : Mem Int} : m.toList.length = m.size := by simp [Mem.toList]

/-- The matrix `M` of `symamd`. -/
theorem symamdMatrix_of {l q perm : List Int} {nnz : Int} (h : ColumnForm (Mem.ofList l 0).get (Mem.ofList q 0).get n n)
    (hn : n + 1 < 2 ^ 31) (hq : q.length = n.toNat + 1) (hperm : perm.length = n.toNat + 1) (hnnz : (Mem.ofList q 0).get n = nnz)
    (hlen : nnz ≤ l.length) (hi32 : nnz < 2 ^ 31)
    (hsmall : 2 * ((allLower (Mem.ofList l 0).get (Mem.ofList q 0).get n).length : Int) < 2 ^ 31) :
    ∃ m perm' : Mem Int, symamdMatrix n l q perm =
        .ok (.ok ((allLower (Mem.ofList l 0).get (Mem.ofList q 0).get n).length, m.toList, perm'.toList)) ∧
      colamdRecommended (2 * ((allLower (Mem.ofList l 0).get (Mem.ofList q 0).get n).length : Int))
        (allLower (Mem.ofList l 0).get (Mem.ofList q 0).get n).length n = some m.size ∧
      perm'.size = n.toNat + 1 ∧
      (∀ y, 0 ≤ y → y ≤ n → perm'.get y = symStart (allLower (Mem.ofList l 0).get (Mem.ofList q 0).get n) y) ∧
      (∀ y k, 0 ≤ y → touches (allLower (Mem.ofList l 0).get (Mem.ofList q 0).get n) y k →
        m.get (symSlot (allLower (Mem.ofList l 0).get (Mem.ofList q 0).get n) y k) = k) ∧
      ∀ z, symStart (allLower (Mem.ofList l 0).get (Mem.ofList q 0).get n) n ≤ z → m.get z = 0 := by
  generalize ha : (Mem.ofList l 0).get = a at *
  generalize hp : (Mem.ofList q 0).get = p at *
  have n0 := h.cols
  have hpn0 := h.nonneg n0 (le_refl n)
  subst hnnz
  have hL : ∀ e ∈ allLower a p n, (0 ≤ e.2 ∧ e.2 < e.1) ∧ e.1 < n := by
    rintro ⟨i, j⟩ he
    rw [mem_allLower] at he
    obtain ⟨hj, hij, x, x1, x2, x3⟩ := he
    have := (h.entry hj.1 hj.2 x1 x2).2
    rw [x3] at this
    exact ⟨⟨hj.1, hij⟩, this.2⟩
  have hread : ∀ i : Nat, i ≤ n.toNat → idx q i = .ok (p i) := by
    intro i hi
    refine idx_of ?_
    rw [← hp, Mem.ofList_get, List.getD_eq_getElem?_getD, List.getElem?_eq_getElem (by omega)]
    rfl
  unfold symamdMatrix
  simp only
  rw [if_neg (by omega), hread _ (le_refl _), ok_bind, show ((n.toNat : Nat) : Int) = n by omega, if_neg (by omega),
    hread 0 (by omega), ok_bind]
  simp only [Nat.cast_zero, h.first, ne_eq, not_true_eq_false, if_false]
  obtain ⟨s, h1, h2, h3, h4, h5⟩ := symCount_of h ha (pm := Mem.ofList q 0) hp hlen (by simp only [Mem.ofList_size]; omega) hi32
    (stats0 := { ColamdStats.start with info3 := 0 }) (count := ⟨n.toNat + 1, fun _ => 0⟩)
    (mark := ⟨n.toNat + 1, fun i => if i < n then -1 else 0⟩) rfl rfl
  rw [h1, ok_bind]
  simp only
  rw [Mem.write_of _ (le_refl 0) (by simp only [Mem.ofList_size]; omega), ok_bind]
  obtain ⟨perm', g1, g2, g3⟩ := symPointers_of (L := allLower a p n) (perm := Mem.ofList perm 0) n0 h2 (by simpa using hperm) h4
  rw [g1, ok_bind]
  -- the copy of the pointers
  obtain ⟨count, c1, c2, c3⟩ := foldlM_span (fun x (c : Mem Int) => c.size = n.toNat + 1 ∧ ∀ y, 0 ≤ y → y < x → c.get y = symStart (allLower a p n) y)
    (fun count j => do count.write j (← perm'.read j)) 0 n n.toNat (by omega) s.count ⟨h2, fun y _ _ => by omega⟩ (by
      rintro x x0 xn c ⟨e1, e2⟩
      rw [Mem.read_of x0 (by omega), ok_bind, Mem.write_of _ x0 (by omega)]
      refine ⟨_, rfl, e1, fun y y0 y1 => ?_⟩
      rcases eq_or_ne y x with rfl | hne
      · rw [Mem.put_get_self, g3 y y0 (by omega)]
      · rw [Mem.put_get_ne _ _ hne]
        exact e2 y y0 (by omega))
  rw [c1, ok_bind, Mem.read_of n0 (by omega), ok_bind, g3 n n0 (le_refl n)]
  have htotal : symStart (allLower a p n) n = 2 * ((allLower a p n).length : Int) := by
    unfold symStart
    have := touchCount_total (n := n) hL (le_refl (allLower a p n).length)
    exact_mod_cast this
  rw [htotal, show 2 * ((allLower a p n).length : Int) / 2 = (allLower a p n).length by omega]
  have hrec := colamdRecommended_of (nnz := 2 * ((allLower a p n).length : Int)) (nRow := (allLower a p n).length) (nCol := n)
    (by omega) hsmall (by omega) (by omega) n0 (by omega)
  rw [hrec]
  simp only [unwrap, ok_bind]
  generalize hlenm : 2 * (2 * ((allLower a p n).length : Int)).toNat + 6 * (n.toNat + 1) + 4 * ((((allLower a p n).length : Int)).toNat + 1) + n.toNat + (2 * ((allLower a p n).length : Int)).toNat / 5 = len
  have hfit : symStart (allLower a p n) n ≤ len := by rw [htotal]; omega
  -- the marks
  have hmarks : ∃ mark, symUnmark (s.stats.status != 0) s.mark n.toNat = .ok mark ∧
      mark.size = n.toNat + 1 ∧ (s.stats.status ≠ 0 → ∀ y, 0 ≤ y → y < n → mark.get y = -1) := by
    by_cases hz : s.stats.status = 0
    · exact ⟨s.mark, by simp [symUnmark, hz], h3, fun hz' => absurd hz hz'⟩
    · rw [symUnmark, if_pos (by simpa using hz)]
      obtain ⟨mark, e1, e2, e3⟩ := foldlM_span (fun x (c : Mem Int) => c.size = n.toNat + 1 ∧ ∀ y, 0 ≤ y → y < x → c.get y = -1)
        (fun (mark : Mem Int) i => mark.write i (-1)) 0 n n.toNat (by omega) s.mark ⟨h3, fun y _ _ => by omega⟩ (by
          rintro x x0 xn c ⟨e1, e2⟩
          rw [Mem.write_of _ x0 (by omega)]
          refine ⟨_, rfl, e1, fun y y0 y1 => ?_⟩
          rcases eq_or_ne y x with rfl | hne
          · rw [Mem.put_get_self]
          · rw [Mem.put_get_ne _ _ hne]
            exact e2 y y0 (by omega))
      exact ⟨mark, e1, e2, fun _ => e3⟩
  obtain ⟨mark, m1, m2, m3⟩ := hmarks
  rw [m1, ok_bind]
  obtain ⟨sb, b1, hb⟩ := foldlM_span (fun j s' => SymBuildInv a p n (s.stats.status != 0) len j (p j) s') (symBuildColumn (s.stats.status != 0) l (Mem.ofList q 0))
    0 n n.toNat (by omega) ⟨⟨len, fun _ => 0⟩, count, mark, 0⟩ (by
      have he : lowerEntries a p 0 (p 0) = [] := by simp [lowerEntries, lowerColumn_self, span_zero]
      refine ⟨c2, m2, rfl, by rw [he]; rfl, fun y y0 yn => ?_, fun hjt y y0 yn => ?_, fun y k _ hk _ => ?_, fun _ _ => rfl⟩
      · rw [he]
        simp only
        rw [c3 y y0 yn]
        simp [symSlot, touchCount]
      · simp only
        rw [m3 (by simpa using hjt) y y0 yn]
        simp [seenRows_self]
      · rw [he] at hk
        simp at hk)
    (fun x x0 xn s' hs' => symBuildColumn_inv h ha hp hlen (by simp only [Mem.ofList_size]; omega) hfit (by
      intro hz
      rcases h5 with h5 | ⟨_, h5⟩
      · rw [h5] at hz; simp at hz
      · exact h5) hs' x0 xn)
  rw [b1, ok_bind]
  refine ⟨sb.m, perm', rfl, by rw [hb.msize], g2, g3, fun y k y0 ht => hb.slots y k y0 (touches_lt ht) ht, by rw [← htotal]; exact hb.rest⟩

end Fiksi
