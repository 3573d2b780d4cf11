import Verif.Model.Gauss
import Verif.Proofs.Basic
import Verif.Proofs.Real
import Mathlib.LinearAlgebra.Span.Basic
import Mathlib.LinearAlgebra.Dimension.Finrank
import Mathlib.LinearAlgebra.Dimension.Constructions
import Mathlib.LinearAlgebra.LinearIndependent.Lemmas
import Mathlib.LinearAlgebra.FiniteDimensional.Lemmas
/-!
# Incremental Gauss–Jordan elimination
-/
namespace Fiksi

open FloatOps

theorem foldlM_range {σ : Type} (P : Nat → σ → Prop) (f : σ → Nat → R σ) (n : Nat) (s : σ) (h0 : P 0 s)
    (hstep : ∀ k < n, ∀ s, P k s → ∃ s', f s k = .ok s' ∧ P (k + 1) s') : ∃ s', (List.range n).foldlM f s = .ok s' ∧ P n s' := by
  induction n with
  | zero => exact ⟨s, rfl, h0⟩
  | succ n ih =>
    obtain ⟨s1, h1, h2⟩ := ih (fun k hk => hstep k (by omega))
    obtain ⟨s2, h3, h4⟩ := hstep n (by omega) s1 h2
    exact ⟨s2, by rw [List.range_succ, List.foldlM_append, h1, ok_bind, List.foldlM_cons, h3, ok_bind]; rfl, h4⟩

/-- The entry in row `r` and column `c` of a row-major matrix with `n` columns. -/
def ent (n : Nat) (m : List ℝ) (r c : Nat) : ℝ := m.getD (r * n + c) 0

theorem flat_inj {n r c r' c' : Nat} (hc : c < n) (hc' : c' < n) (h : r * n + c = r' * n + c') : r = r' ∧ c = c' := by
  have h1 : (r * n + c) / n = (r' * n + c') / n := by rw [h]
  rw [Nat.mul_comm r, Nat.mul_comm r', Nat.mul_add_div (by omega), Nat.mul_add_div (by omega), Nat.div_eq_of_lt hc,
    Nat.div_eq_of_lt hc'] at h1
  have h2 : r = r' := by omega
  subst h2
  exact ⟨rfl, by omega⟩

theorem flat_lt {n r c l : Nat} (hc : c < n) (h : (r + 1) * n ≤ l) : r * n + c < l := by
  rw [Nat.add_mul] at h
  omega

theorem idx_ent {n : Nat} {m : List ℝ} {r c : Nat} (hc : c < n) (h : (r + 1) * n ≤ m.length) :
    idx m (r * n + c) = .ok (ent n m r c) := by
  have := flat_lt hc h
  rw [idx_of (List.getElem?_eq_getElem this), ent, List.getD_eq_getElem?_getD, List.getElem?_eq_getElem this]
  rfl

theorem ent_set {n : Nat} {m : List ℝ} {r c r' c' : Nat} (hc : c < n) (hc' : c' < n) (h : (r + 1) * n ≤ m.length) (a : ℝ) :
    ent n (m.set (r * n + c) a) r' c' = if r' = r ∧ c' = c then a else ent n m r' c' := by
  have hl := flat_lt hc h
  unfold ent
  rw [List.getD_eq_getElem?_getD, List.getD_eq_getElem?_getD]
  split
  · rename_i he
    rw [he.1, he.2, List.getElem?_set_self hl]
    rfl
  · rename_i he
    rw [List.getElem?_set_ne (fun h' => he ?_)]
    obtain ⟨h1, h2⟩ := flat_inj hc hc' h'
    exact ⟨h1.symm, h2.symm⟩

theorem subtractRow_spec {n t s : Nat} {m : List ℝ} (ht : (t + 1) * n ≤ m.length) (hs : (s + 1) * n ≤ m.length) (hne : s ≠ t) (a : ℝ) :
    ∃ m', subtractRow n t s a m = .ok m' ∧ m'.length = m.length ∧
      ∀ r, ∀ c < n, ent n m' r c = if r = t then ent n m r c - a * ent n m s c else ent n m r c := by
  obtain ⟨m', h1, h2, h3⟩ := foldlM_range (fun k (m' : List ℝ) => m'.length = m.length ∧
      ∀ r, ∀ c < n, ent n m' r c = if r = t ∧ c < k then ent n m r c - a * ent n m s c else ent n m r c)
    (fun (m : List ℝ) col => do
      let x ← idx m (t * n + col)
      let b ← idx m (s * n + col)
      setIdx m (t * n + col) (x - a * b)) n m ⟨rfl, fun r c _ => by simp⟩ (by
    rintro k hk m1 ⟨h1, h2⟩
    refine ⟨m1.set (t * n + k) (ent n m1 t k - a * ent n m1 s k), ?_, by simpa using h1, fun r c hc => ?_⟩
    · rw [idx_ent hk (by rw [h1]; exact ht), ok_bind, idx_ent hk (by rw [h1]; exact hs), ok_bind,
        setIdx_of _ (by rw [h1]; exact flat_lt hk ht)]
    · rw [ent_set hk hc (by rw [h1]; exact ht), h2 r c hc, h2 t k hk, h2 s k hk]
      rw [if_neg (show ¬ (t = t ∧ k < k) by omega), if_neg (show ¬ (s = t ∧ k < k) by omega)]
      by_cases hr : r = t
      · subst hr
        rcases lt_trichotomy c k with h | h | h
        · rw [if_neg (by omega), if_pos ⟨rfl, h⟩, if_pos ⟨rfl, by omega⟩]
        · rw [if_pos ⟨rfl, h⟩, if_pos ⟨rfl, by omega⟩, h]
        · rw [if_neg (by omega), if_neg (by omega), if_neg (by omega)]
      · rw [if_neg (fun h => hr h.1), if_neg (fun h => hr h.1), if_neg (fun h => hr h.1)])
  refine ⟨m', h1, h2, fun r c hc => ?_⟩
  rw [h3 r c hc]
  by_cases hr : r = t
  · rw [if_pos ⟨hr, hc⟩, if_pos hr]
  · rw [if_neg (fun h => hr h.1), if_neg hr]

theorem scaleRow_spec {n t : Nat} {m : List ℝ} (ht : (t + 1) * n ≤ m.length) (a : ℝ) :
    ∃ m', scaleRow n t a m = .ok m' ∧ m'.length = m.length ∧
      ∀ r, ∀ c < n, ent n m' r c = if r = t then ent n m r c * (1 / a) else ent n m r c := by
  obtain ⟨m', h1, h2, h3⟩ := foldlM_range (fun k (m' : List ℝ) => m'.length = m.length ∧
      ∀ r, ∀ c < n, ent n m' r c = if r = t ∧ c < k then ent n m r c * (1 / a) else ent n m r c)
    (fun (m : List ℝ) col => do
      let x ← idx m (t * n + col)
      setIdx m (t * n + col) (x * (1 / a))) n m ⟨rfl, fun r c _ => by simp⟩ (by
    rintro k hk m1 ⟨h1, h2⟩
    refine ⟨m1.set (t * n + k) (ent n m1 t k * (1 / a)), ?_, by simpa using h1, fun r c hc => ?_⟩
    · rw [idx_ent hk (by rw [h1]; exact ht), ok_bind, setIdx_of _ (by rw [h1]; exact flat_lt hk ht)]
    · rw [ent_set hk hc (by rw [h1]; exact ht), h2 r c hc, h2 t k hk]
      rw [if_neg (show ¬ (t = t ∧ k < k) by omega)]
      by_cases hr : r = t
      · subst hr
        rcases lt_trichotomy c k with h | h | h
        · rw [if_neg (by omega), if_pos ⟨rfl, h⟩, if_pos ⟨rfl, by omega⟩]
        · rw [if_pos ⟨rfl, h⟩, if_pos ⟨rfl, by omega⟩, h]
        · rw [if_neg (by omega), if_neg (by omega), if_neg (by omega)]
      · rw [if_neg (fun h => hr h.1), if_neg (fun h => hr h.1), if_neg (fun h => hr h.1)])
  refine ⟨m', h1, h2, fun r c hc => ?_⟩
  rw [h3 r c hc]
  by_cases hr : r = t
  · rw [if_pos ⟨hr, hc⟩, if_pos hr]
  · rw [if_neg (fun h => hr h.1), if_neg hr]

/-- A row as a vector. -/
def rowVec (n : Nat) (m : List ℝ) (r : Nat) : Fin n → ℝ := fun c => ent n m r c

/-- The number of independent rows among the first `t`. -/
def rankOf (inc : List Bool) (t : Nat) : Nat := (inc.take t).count true

theorem rankOf_succ {inc : List Bool} {t : Nat} {b : Bool} (h : inc[t]? = some b) :
    rankOf inc (t + 1) = rankOf inc t + (if b then 1 else 0) := by
  rw [rankOf, List.take_add_one, h, List.count_append, rankOf]
  cases b <;> simp

theorem rankOf_mono (inc : List Bool) {s t : Nat} (h : s ≤ t) : rankOf inc s ≤ rankOf inc t := by
  unfold rankOf
  have : inc.take s = (inc.take t).take s := by rw [List.take_take, min_eq_left h]
  rw [this]
  exact (List.take_sublist _ _).count_le _

theorem rankOf_le (inc : List Bool) (t : Nat) : rankOf inc t ≤ t := by
  unfold rankOf
  exact le_trans List.count_le_length (by simp)

/-- The pivot columns are distinct columns, and every column is listed. -/
structure ColumnsOk (n : Nat) (columns : List Nat) : Prop where
  length : columns.length = n
  lt : ∀ c ∈ columns, c < n
  mem : ∀ c < n, c ∈ columns
  nodup : columns.Nodup

/-- The columns of a permutation, with default. -/
def colAt (columns : List Nat) (j : Nat) : Nat := columns.getD j 0

theorem ColumnsOk.idx {n : Nat} {columns : List Nat} (h : ColumnsOk n columns) {j : Nat} (hj : j < n) :
    idx columns j = .ok (colAt columns j) ∧ colAt columns j < n := by
  have hj : j < columns.length := by rw [h.length]; exact hj
  have h1 : colAt columns j = columns[j] := by
    rw [colAt, List.getD_eq_getElem?_getD, List.getElem?_eq_getElem hj]; rfl
  exact ⟨by rw [idx_of (List.getElem?_eq_getElem hj), h1], by rw [h1]; exact h.lt _ (List.getElem_mem hj)⟩

/-- The invariant of the outer loop, before row `row`; `A` is the original matrix. -/
structure GaussOk (eps : ℝ) (nr n : Nat) (A : List ℝ) (row : Nat) (st : GaussState ℝ) : Prop where
  matrix : st.matrix.length = nr * n
  columns : ColumnsOk n st.columns
  increases : st.increases.length = nr
  current : st.current = rankOf st.increases row
  /-- Independent rows have a one in their own pivot column and zeros in the others. -/
  pivot : ∀ t < row, st.increases[t]? = some true → ∀ j < st.current,
    ent n st.matrix t (colAt st.columns j) = if j = rankOf st.increases t then 1 else 0
  /-- The other rows have zeros in all pivot columns; without tolerance, everywhere. -/
  rest : ∀ t < row, st.increases[t]? = some false → ∀ j < st.current, ent n st.matrix t (colAt st.columns j) = 0
  zero : eps = 0 → ∀ t < row, st.increases[t]? = some false → rowVec n st.matrix t = 0
  later : ∀ t, row ≤ t → rowVec n st.matrix t = rowVec n A t
  laterFlag : ∀ t, row ≤ t → t < nr → st.increases[t]? = some false
  span : Submodule.span ℝ (rowVec n st.matrix '' {t | t < row}) = Submodule.span ℝ (rowVec n A '' {t | t < row})

theorem rowVec_eq {n : Nat} {m m' : List ℝ} {r r' : Nat} (h : ∀ c < n, ent n m r c = ent n m' r' c) : rowVec n m r = rowVec n m' r' := by
  ext c
  exact h c c.2

theorem ent_of_rowVec {n : Nat} {m m' : List ℝ} {r r' c : Nat} (h : rowVec n m r = rowVec n m' r') (hc : c < n) :
    ent n m r c = ent n m' r' c := congrFun h ⟨c, hc⟩

theorem rows_le {nr n r : Nat} {m : List ℝ} (hm : m.length = nr * n) (h : r < nr) : (r + 1) * n ≤ m.length := by
  rw [hm]
  exact Nat.mul_le_mul_right n h

section
variable {eps : ℝ} {nr n row : Nat} {A : List ℝ} {st : GaussState ℝ}

theorem GaussOk.flag (h : GaussOk eps nr n A row st) {t : Nat} (ht : t < nr) : ∃ b, st.increases[t]? = some b :=
  ⟨_, List.getElem?_eq_getElem (by rw [h.increases]; exact ht)⟩

theorem GaussOk.current_le (h : GaussOk eps nr n A row st) : st.current ≤ row := h.current ▸ rankOf_le _ _

theorem eliminate_ok (h : GaussOk eps nr n A row st) (hr : row < nr) (hn : row < n) :
    ∃ m k, (List.range row).foldlM (eliminate n row st.columns st.increases) (st.matrix, 0) = .ok (m, k) ∧
      m.length = nr * n ∧ (∀ r, r ≠ row → rowVec n m r = rowVec n st.matrix r) ∧
      rowVec n m row - rowVec n A row ∈ Submodule.span ℝ (rowVec n st.matrix '' {t | t < row}) ∧
      ∀ j < st.current, ent n m row (colAt st.columns j) = 0 := by
  obtain ⟨⟨m, k⟩, h1, h2, h3, h4, h5, h6⟩ := foldlM_range (fun t (p : List ℝ × Nat) => p.2 = rankOf st.increases t ∧
      p.1.length = nr * n ∧ (∀ r, r ≠ row → rowVec n p.1 r = rowVec n st.matrix r) ∧
      rowVec n p.1 row - rowVec n A row ∈ Submodule.span ℝ (rowVec n st.matrix '' {t | t < row}) ∧
      ∀ j < rankOf st.increases t, ent n p.1 row (colAt st.columns j) = 0)
    (eliminate n row st.columns st.increases) row (st.matrix, 0)
    ⟨by simp [rankOf], h.matrix, fun _ _ => rfl, by rw [h.later row (le_refl _), sub_self]; exact Submodule.zero_mem _, by simp [rankOf]⟩
    (by
      rintro t ht ⟨m, k⟩ ⟨h1, h2, h3, h4, h5⟩
      simp only at h1 h2 h3 h4 h5
      subst h1
      have htr : t < nr := by omega
      have hk : rankOf st.increases t < n := lt_of_le_of_lt (rankOf_le _ _) (by omega)
      obtain ⟨h6, h7⟩ := h.columns.idx hk
      obtain ⟨b, hb⟩ := h.flag htr
      obtain ⟨m', h8, h9, h10⟩ := subtractRow_spec (n := n) (t := row) (s := t) (rows_le h2 hr) (rows_le h2 htr) (by omega)
        (ent n m row (colAt st.columns (rankOf st.increases t)))
      have hrow : rowVec n m' row = rowVec n m row - ent n m row (colAt st.columns (rankOf st.increases t)) • rowVec n st.matrix t := by
        rw [← h3 t (by omega)]
        ext c
        have := h10 row c c.2
        rw [if_pos rfl] at this
        exact this
      have hent : ∀ c < n, ent n m' row c = ent n m row c - ent n m row (colAt st.columns (rankOf st.increases t)) * ent n st.matrix t c :=
        fun c hc => congrFun hrow ⟨c, hc⟩
      have hcur : rankOf st.increases (t + 1) ≤ st.current := h.current ▸ rankOf_mono _ (by omega)
      refine ⟨(m', rankOf st.increases (t + 1)), ?_, rfl, h9.trans h2, fun r hne => ?_, ?_, fun j hj => ?_⟩
      · rw [eliminate]
        simp only
        rw [h6, ok_bind, idx_ent h7 (rows_le h2 hr), ok_bind, h8, ok_bind, idx_of hb, ok_bind, rankOf_succ hb]
        cases b <;> rfl
      · rw [← h3 r hne]
        exact rowVec_eq (fun c hc => by rw [h10 r c hc, if_neg hne])
      · simp only
        rw [hrow, sub_right_comm]
        exact Submodule.sub_mem _ h4 (Submodule.smul_mem _ _ (Submodule.subset_span ⟨t, ht, rfl⟩))
      · simp only at hj ⊢
        obtain ⟨-, hc⟩ := h.columns.idx (j := j) (lt_of_lt_of_le hj (le_trans hcur (le_trans h.current_le hn.le)))
        rw [hent _ hc]
        rw [rankOf_succ hb] at hj hcur
        cases b with
        | true =>
          have hp := h.pivot t ht hb j (lt_of_lt_of_le hj hcur)
          simp only [if_true] at hj
          by_cases hjt : j = rankOf st.increases t
          · rw [if_pos hjt] at hp
            rw [hp, hjt]
            ring
          · rw [if_neg hjt] at hp
            rw [hp, h5 j (by omega)]
            ring
        | false =>
          have hp := h.rest t ht hb j (lt_of_lt_of_le hj hcur)
          simp only [Bool.false_eq_true, if_false, add_zero] at hj
          rw [hp, h5 j hj]
          ring)
  exact ⟨m, k, h1, h3, h4, h5, h.current ▸ h6⟩

theorem findPivot_spec {m : List ℝ} (hm : m.length = nr * n) (hr : row < nr) {columns : List Nat} (hc : ColumnsOk n columns) :
    ∀ (k i : Nat), i + k = n → ∃ o, findPivot eps n row columns m k i = .ok o ∧
      match o with
      | none => ∀ j, i ≤ j → j < n → |ent n m row (colAt columns j)| ≤ eps
      | some j => i ≤ j ∧ j < n ∧ eps < |ent n m row (colAt columns j)| := by
  intro k
  induction k with
  | zero => intro i hi; exact ⟨none, rfl, fun j h1 h2 => by omega⟩
  | succ k ih =>
    intro i hi
    obtain ⟨h1, h2⟩ := hc.idx (j := i) (by omega)
    rw [findPivot, h1, ok_bind, idx_ent h2 (rows_le hm hr), ok_bind]
    simp only [ltB, FloatOps.abs, decide_eq_true_eq]
    split
    · rename_i h3
      exact ⟨some i, rfl, le_refl _, by omega, h3⟩
    · rename_i h3
      obtain ⟨o, h4, h5⟩ := ih (i + 1) (by omega)
      refine ⟨o, h4, ?_⟩
      cases o with
      | none =>
        intro j hj hjn
        rcases Nat.eq_or_lt_of_le hj with rfl | hj
        · exact not_lt.1 h3
        · exact h5 j hj hjn
      | some j => exact ⟨by have := h5.1; omega, h5.2⟩

theorem swapIdx_ok {α : Type} {l : List α} {i j : Nat} (hi : i < l.length) (hj : j < l.length) :
    swapIdx l i j = .ok ((l.set i l[j]).set j l[i]) := by
  rw [swapIdx, idx_of (List.getElem?_eq_getElem hi), ok_bind, idx_of (List.getElem?_eq_getElem hj), ok_bind, setIdx_of _ hi, ok_bind,
    setIdx_of _ (by simpa using hj)]

theorem ColumnsOk.swap {columns : List Nat} (h : ColumnsOk n columns) {i j : Nat} (hi : i ≤ j) (hj : j < n) :
    ∃ columns', swapIdx columns i j = .ok columns' ∧ ColumnsOk n columns' ∧ colAt columns' i = colAt columns j ∧
      ∀ k < i, colAt columns' k = colAt columns k := by
  have hj' : j < columns.length := by rw [h.length]; exact hj
  have hi' : i < columns.length := by omega
  have hperm : ((columns.set i columns[j]).set j columns[i]).Perm columns := List.set_set_perm hi' hj'
  refine ⟨_, swapIdx_ok hi' hj', ⟨by simp [h.length], fun c hc => h.lt c (hperm.mem_iff.1 hc), fun c hc => hperm.mem_iff.2 (h.mem c hc),
    hperm.nodup_iff.2 h.nodup⟩, ?_, fun k hk => ?_⟩
  · simp only [colAt, List.getD_eq_getElem?_getD]
    by_cases hij : j = i
    · subst hij
      rw [List.getElem?_set_self (by simpa using hj'), List.getElem?_eq_getElem hj']
    · rw [List.getElem?_set_ne hij, List.getElem?_set_self hi', List.getElem?_eq_getElem hj']
  · simp only [colAt, List.getD_eq_getElem?_getD]
    rw [List.getElem?_set_ne (by omega), List.getElem?_set_ne (by omega)]

theorem image_lt_succ {α : Type} (f : Nat → α) (k : Nat) : f '' {t | t < k + 1} = insert (f k) (f '' {t | t < k}) := by
  rw [← Set.image_insert_eq]
  congr 1
  ext t
  simp only [Set.mem_setOf_eq, Set.mem_insert_iff]
  omega

theorem span_insert_congr {V : Type} [AddCommGroup V] [Module ℝ V] {x y : V} {s s' : Set V} (hs : Submodule.span ℝ s = Submodule.span ℝ s')
    (h : x - y ∈ Submodule.span ℝ s) : Submodule.span ℝ (insert x s) = Submodule.span ℝ (insert y s') := by
  rw [Submodule.span_insert, Submodule.span_insert, ← hs]
  apply le_antisymm <;> refine sup_le ?_ le_sup_right <;> rw [Submodule.span_singleton_le_iff_mem]
  · have := Submodule.add_mem_sup (Submodule.mem_span_singleton_self (R := ℝ) y) h
    rwa [add_sub_cancel] at this
  · have := Submodule.add_mem_sup (Submodule.mem_span_singleton_self (R := ℝ) x) (Submodule.neg_mem _ h)
    rwa [neg_sub, add_sub_cancel] at this

theorem span_shear_le {V : Type} [AddCommGroup V] [Module ℝ V] {w : V} {M M' : Nat → V} {I : Set Nat}
    (h : ∀ t ∈ I, ∃ a : ℝ, M' t = M t - a • w) : Submodule.span ℝ (insert w (M' '' I)) ≤ Submodule.span ℝ (insert w (M '' I)) := by
  rw [Submodule.span_le]
  rintro v (rfl | ⟨t, ht, rfl⟩)
  · exact Submodule.subset_span (Set.mem_insert _ _)
  · obtain ⟨a, ha⟩ := h t ht
    rw [ha]
    exact Submodule.sub_mem _ (Submodule.subset_span (Set.mem_insert_of_mem _ ⟨t, ht, rfl⟩))
      (Submodule.smul_mem _ _ (Submodule.subset_span (Set.mem_insert _ _)))

theorem span_shear {V : Type} [AddCommGroup V] [Module ℝ V] {w : V} {M M' : Nat → V} {I : Set Nat}
    (h : ∀ t ∈ I, ∃ a : ℝ, M' t = M t - a • w) : Submodule.span ℝ (insert w (M' '' I)) = Submodule.span ℝ (insert w (M '' I)) := by
  refine le_antisymm (span_shear_le h) (span_shear_le fun t ht => ?_)
  obtain ⟨a, ha⟩ := h t ht
  exact ⟨-a, by rw [ha]; simp⟩

theorem span_smul_insert {V : Type} [AddCommGroup V] [Module ℝ V] {w : V} {s : Set V} {a : ℝ} (ha : a ≠ 0) :
    Submodule.span ℝ (insert (a • w) s) = Submodule.span ℝ (insert w s) := by
  rw [Submodule.span_insert, Submodule.span_insert, Submodule.span_singleton_smul_eq (IsUnit.mk0 a ha)]

/-- The value of a vector at a column. -/
def vAt (v : Fin n → ℝ) (c : Nat) : ℝ := if h : c < n then v ⟨c, h⟩ else 0

theorem vAt_rowVec {m : List ℝ} {r c : Nat} (hc : c < n) : vAt (rowVec n m r) c = ent n m r c := by
  rw [vAt, dif_pos hc]
  rfl

theorem rankOf_inj {inc : List Bool} {s t : Nat} (hs : inc[s]? = some true) (ht : inc[t]? = some true) (h : rankOf inc s = rankOf inc t) :
    s = t := by
  rcases lt_trichotomy s t with hst | hst | hst
  · have h1 := rankOf_mono inc (show s + 1 ≤ t by omega)
    rw [rankOf_succ hs] at h1
    simp only [if_true] at h1
    omega
  · exact hst
  · have h1 := rankOf_mono inc (show t + 1 ≤ s by omega)
    rw [rankOf_succ ht] at h1
    simp only [if_true] at h1
    omega

theorem GaussOk.rank_lt (h : GaussOk eps nr n A row st) {t : Nat} (ht : t < row) (hf : st.increases[t]? = some true) :
    rankOf st.increases t < st.current := by
  have h1 := rankOf_mono st.increases (show t + 1 ≤ row by omega)
  rw [rankOf_succ hf, ← h.current] at h1
  simp only [if_true] at h1
  omega

/-- The rows found independent so far. -/
def independentRows (st : GaussState ℝ) (row : Nat) : Finset Nat := (Finset.range row).filter (fun t => st.increases[t]? = some true)

theorem mem_independentRows {t : Nat} : t ∈ independentRows st row ↔ t < row ∧ st.increases[t]? = some true := by
  simp [independentRows]

/-- Without tolerance, a vector in the span of the rows so far is determined by its values in the pivot columns. -/
theorem GaussOk.expand (h : GaussOk eps nr n A row st) (hr : row ≤ nr) (hn : row ≤ n) (h0 : eps = 0) {v : Fin n → ℝ}
    (hv : v ∈ Submodule.span ℝ (rowVec n st.matrix '' {t | t < row})) :
    v = ∑ t ∈ independentRows st row, vAt v (colAt st.columns (rankOf st.increases t)) • rowVec n st.matrix t := by
  have hvadd : ∀ (x y : Fin n → ℝ) c, vAt (x + y) c = vAt x c + vAt y c := by
    intro x y c; unfold vAt; split <;> simp
  have hvsmul : ∀ (a : ℝ) (x : Fin n → ℝ) c, vAt (a • x) c = a * vAt x c := by
    intro x y c; unfold vAt; split <;> simp
  induction hv using Submodule.span_induction with
  | mem x hx =>
    obtain ⟨s, hs, rfl⟩ := hx
    have hs : s < row := hs
    obtain ⟨b, hb⟩ := h.flag (t := s) (by omega)
    cases b with
    | true =>
      rw [Finset.sum_eq_single s]
      · have h1 := h.rank_lt hs hb
        have h2 := (h.columns.idx (j := rankOf st.increases s) (lt_of_lt_of_le h1 (le_trans h.current_le hn))).2
        rw [vAt_rowVec h2, h.pivot s hs hb _ h1, if_pos rfl, one_smul]
      · intro t ht hts
        rw [mem_independentRows] at ht
        have h1 := h.rank_lt ht.1 ht.2
        have h2 := (h.columns.idx (j := rankOf st.increases t) (lt_of_lt_of_le h1 (le_trans h.current_le hn))).2
        rw [vAt_rowVec h2, h.pivot s hs hb _ h1, if_neg (fun e => hts (rankOf_inj ht.2 hb e)), zero_smul]
      · intro hns
        exact absurd (mem_independentRows.2 ⟨hs, hb⟩) hns
    | false =>
      rw [h.zero h0 s hs hb]
      rw [Finset.sum_eq_zero]
      intro t _
      have : vAt (0 : Fin n → ℝ) (colAt st.columns (rankOf st.increases t)) = 0 := by unfold vAt; split <;> rfl
      rw [this, zero_smul]
  | zero =>
    rw [Finset.sum_eq_zero]
    intro t _
    have : vAt (0 : Fin n → ℝ) (colAt st.columns (rankOf st.increases t)) = 0 := by unfold vAt; split <;> rfl
    rw [this, zero_smul]
  | add x y _ _ hx hy =>
    simp only [hvadd, add_smul, Finset.sum_add_distrib]
    rw [← hx, ← hy]
  | smul a x _ hx =>
    simp only [hvsmul, mul_smul, ← Finset.smul_sum]
    rw [← hx]

theorem GaussOk.eq_zero (h : GaussOk eps nr n A row st) (hr : row ≤ nr) (hn : row ≤ n) (h0 : eps = 0) {v : Fin n → ℝ}
    (hv : v ∈ Submodule.span ℝ (rowVec n st.matrix '' {t | t < row})) (hz : ∀ j < st.current, vAt v (colAt st.columns j) = 0) : v = 0 := by
  rw [h.expand hr hn h0 hv, Finset.sum_eq_zero]
  intro t ht
  rw [mem_independentRows] at ht
  rw [hz _ (h.rank_lt ht.1 ht.2), zero_smul]

theorem GaussOk.linearIndependent (h : GaussOk eps nr n A row st) (hn : row ≤ n) :
    LinearIndependent ℝ (fun t : independentRows st row => rowVec n st.matrix t) := by
  rw [Fintype.linearIndependent_iff]
  rintro g hg ⟨s, hs⟩
  have hs' := mem_independentRows.1 hs
  have h1 := h.rank_lt hs'.1 hs'.2
  have h2 := (h.columns.idx (j := rankOf st.increases s) (lt_of_lt_of_le h1 (le_trans h.current_le hn))).2
  have h3 := congrFun hg ⟨_, h2⟩
  rw [Finset.sum_apply, Finset.sum_eq_single ⟨s, hs⟩] at h3
  · have h4 : rowVec n st.matrix s ⟨_, h2⟩ = 1 := by
      show ent n st.matrix s _ = 1
      rw [h.pivot s hs'.1 hs'.2 _ h1, if_pos rfl]
    simpa [h4] using h3
  · rintro ⟨t, ht⟩ - hne
    have ht' := mem_independentRows.1 ht
    have h4 : rowVec n st.matrix t ⟨_, h2⟩ = 0 := by
      show ent n st.matrix t _ = 0
      rw [h.pivot t ht'.1 ht'.2 _ h1, if_neg]
      exact fun e => hne (Subtype.ext (rankOf_inj hs'.2 ht'.2 e).symm)
    simp [h4]
  · simp

theorem rankOf_card (inc : List Bool) (row : Nat) :
    ((Finset.range row).filter (fun t => inc[t]? = some true)).card = rankOf inc row := by
  induction row with
  | zero => simp [rankOf]
  | succ row ih =>
    rw [Finset.range_add_one, Finset.filter_insert]
    cases hb : inc[row]? with
    | none =>
      rw [if_neg (by simp), ih, rankOf, rankOf]
      have : inc.length ≤ row := List.getElem?_eq_none_iff.1 hb
      rw [List.take_of_length_le this, List.take_of_length_le (by omega)]
    | some b =>
      rw [rankOf_succ hb, ← ih]
      cases b with
      | true => rw [if_pos rfl, Finset.card_insert_of_notMem (by simp)]; simp
      | false => simp

theorem GaussOk.rank_le (h : GaussOk eps nr n A row st) (hn : row ≤ n) :
    st.current ≤ Module.finrank ℝ (Submodule.span ℝ (rowVec n A '' {t | t < row})) := by
  have h1 := finrank_span_eq_card (h.linearIndependent hn)
  have h2 : Fintype.card (independentRows st row) = st.current := by
    rw [Fintype.card_coe, independentRows, rankOf_card, h.current]
  rw [← h2, ← h1, ← h.span]
  apply Submodule.finrank_mono
  apply Submodule.span_mono
  rintro v ⟨⟨t, ht⟩, rfl⟩
  exact ⟨t, (mem_independentRows.1 ht).1, rfl⟩

theorem GaussOk.rank_eq (h : GaussOk eps nr n A row st) (hr : row ≤ nr) (hn : row ≤ n) (h0 : eps = 0) :
    st.current = Module.finrank ℝ (Submodule.span ℝ (rowVec n A '' {t | t < row})) := by
  have h1 := finrank_span_eq_card (h.linearIndependent hn)
  have h2 : Fintype.card (independentRows st row) = st.current := by
    rw [Fintype.card_coe, independentRows, rankOf_card, h.current]
  rw [← h2, ← h1, ← h.span]
  suffices hs : Submodule.span ℝ (Set.range fun t : independentRows st row => rowVec n st.matrix t) =
      Submodule.span ℝ (rowVec n st.matrix '' {t | t < row}) by rw [hs]
  apply le_antisymm
  · apply Submodule.span_mono
    rintro v ⟨⟨t, ht⟩, rfl⟩
    exact ⟨t, (mem_independentRows.1 ht).1, rfl⟩
  · intro v hv
    rw [h.expand hr hn h0 hv]
    refine Submodule.sum_mem _ (fun t ht => Submodule.smul_mem _ _ (Submodule.subset_span ⟨⟨t, ht⟩, rfl⟩))

theorem rankOf_set {inc : List Bool} {row t : Nat} (b : Bool) (h : t ≤ row) : rankOf (inc.set row b) t = rankOf inc t := by
  rw [rankOf, rankOf, List.take_set_of_le h]

/-- Whether the flag of a row says that it depends on the rows before it. -/
def Spec.DependentRow (n : Nat) (A : List ℝ) (row : Nat) : Prop :=
  rowVec n A row ∈ Submodule.span ℝ (rowVec n A '' {t | t < row})

theorem gaussRow_ok (heps : 0 ≤ eps) (h : GaussOk eps nr n A row st) (hr : row < nr) (hn : row < n) :
    ∃ st', gaussRow eps n st row = .ok st' ∧ GaussOk eps nr n A (row + 1) st' ∧
      (∀ t, t ≠ row → st'.increases[t]? = st.increases[t]?) ∧
      (eps = 0 → (st'.increases[row]? = some false ↔ Spec.DependentRow n A row)) := by
  obtain ⟨m, k, e1, e2, e3, e4, e5⟩ := eliminate_ok h hr hn
  have hcur : st.current < n := lt_of_le_of_lt h.current_le hn
  obtain ⟨o, f1, f2⟩ := findPivot_spec (eps := eps) e2 hr h.columns (n - st.current) st.current (by omega)
  have hbefore : rowVec n m '' {t | t < row} = rowVec n st.matrix '' {t | t < row} :=
    Set.image_congr (fun t (ht : t < row) => e3 t (by omega))
  have e4' : rowVec n A row - rowVec n m row ∈ Submodule.span ℝ (rowVec n st.matrix '' {t | t < row}) := by
    rw [← neg_sub]; exact Submodule.neg_mem _ e4
  rw [gaussRow, e1, ok_bind]
  simp only
  rw [f1, ok_bind]
  cases o with
  | none =>
    simp only at f2
    have hflag := h.laterFlag row (le_refl _) hr
    have hw : eps = 0 → rowVec n m row = 0 := by
      intro h0
      ext ⟨c, hc⟩
      show ent n m row c = 0
      obtain ⟨j, hj, hjc⟩ := List.getElem_of_mem (h.columns.mem c hc)
      have hjn : j < n := by rw [← h.columns.length]; exact hj
      have hcol : colAt st.columns j = c := by
        rw [colAt, List.getD_eq_getElem?_getD, List.getElem?_eq_getElem hj, hjc]; rfl
      rw [← hcol]
      rcases lt_or_ge j st.current with hlt | hge
      · exact e5 j hlt
      · have := f2 j hge hjn
        rw [h0] at this
        exact abs_nonpos_iff.1 this
    refine ⟨{ st with matrix := m }, rfl, ⟨e2, h.columns, h.increases, ?_, ?_, ?_, ?_, ?_, ?_, ?_⟩, fun _ _ => rfl, fun h0 => ?_⟩
    · rw [rankOf_succ hflag]
      simpa using h.current
    · intro t ht hf j hj
      have : t ≠ row := by rintro rfl; rw [hflag] at hf; cases hf
      rw [ent_of_rowVec (e3 t this) (h.columns.idx (lt_trans hj hcur)).2]
      exact h.pivot t (by omega) hf j hj
    · intro t ht hf j hj
      by_cases htr : t = row
      · rw [htr]; exact e5 j hj
      · simp only
        rw [ent_of_rowVec (e3 t htr) (h.columns.idx (lt_trans hj hcur)).2]
        exact h.rest t (by omega) hf j hj
    · intro h0 t ht hf
      by_cases htr : t = row
      · rw [htr]; exact hw h0
      · simp only
        rw [e3 t htr]
        exact h.zero h0 t (by omega) hf
    · intro t ht
      simp only
      rw [e3 t (by omega)]
      exact h.later t (by omega)
    · intro t ht
      exact h.laterFlag t (by omega)
    · simp only
      rw [image_lt_succ, image_lt_succ, hbefore]
      exact span_insert_congr h.span e4
    · simp only
      rw [hflag, Spec.DependentRow, ← h.span]
      refine ⟨fun _ => ?_, fun _ => rfl⟩
      rw [hw h0, sub_zero] at e4'
      exact e4'
  | some i =>
    obtain ⟨g1, g2, g3⟩ := f2
    obtain ⟨columns, c1, c2, c3, c4⟩ := h.columns.swap g1 g2
    obtain ⟨d1, d2⟩ := c2.idx hcur
    have hne : ent n m row (colAt columns st.current) ≠ 0 := by
      rw [c3]
      intro h0
      rw [h0, abs_zero] at g3
      linarith
    obtain ⟨m2, s1, s2, s3⟩ := scaleRow_spec (n := n) (rows_le e2 hr) (ent n m row (colAt columns st.current))
    have s4 : rowVec n m2 row = (1 / ent n m row (colAt columns st.current)) • rowVec n m row := by
      ext c
      have := s3 row c c.2
      rw [if_pos rfl, mul_comm] at this
      exact this
    have s5 : ∀ r, r ≠ row → rowVec n m2 r = rowVec n st.matrix r := by
      intro r hr
      rw [← e3 r hr]
      exact rowVec_eq (fun c hc => by rw [s3 r c hc, if_neg hr])
    obtain ⟨m3, b1, b2, b3⟩ := foldlM_range (fun t (m' : List ℝ) => m'.length = nr * n ∧
        ∀ r, rowVec n m' r = if r < t then rowVec n m2 r - ent n m2 r (colAt columns st.current) • rowVec n m2 row else rowVec n m2 r)
      (backSubstitute n row (colAt columns st.current)) row m2 ⟨s2.trans e2, fun r => by simp⟩ (by
        rintro t ht m' ⟨h1, h2⟩
        have htr : t < nr := by omega
        have h3 : ent n m' t (colAt columns st.current) = ent n m2 t (colAt columns st.current) := by
          have := h2 t
          rw [if_neg (by omega)] at this
          exact ent_of_rowVec this d2
        have h4 : rowVec n m' row = rowVec n m2 row := by have := h2 row; rwa [if_neg (by omega)] at this
        obtain ⟨m'', h5, h6, h7⟩ := subtractRow_spec (n := n) (t := t) (s := row) (rows_le h1 htr) (rows_le h1 hr) (by omega)
          (ent n m' t (colAt columns st.current))
        refine ⟨m'', by rw [backSubstitute, idx_ent d2 (rows_le h1 htr), ok_bind, h5], h6.trans h1, fun r => ?_⟩
        by_cases hrt : r = t
        · subst hrt
          rw [if_pos (by omega), ← h3, ← h4]
          have h8 := h2 r
          rw [if_neg (by omega)] at h8
          rw [← h8]
          ext c
          have := h7 r c c.2
          rw [if_pos rfl] at this
          exact this
        · have h8 : rowVec n m'' r = rowVec n m' r := rowVec_eq (fun c hc => by rw [h7 r c hc, if_neg hrt])
          rw [h8, h2 r]
          by_cases hlt : r < t
          · rw [if_pos hlt, if_pos (by omega)]
          · rw [if_neg hlt, if_neg (by omega)])
    simp only
    rw [c1, ok_bind, d1, ok_bind, idx_ent d2 (rows_le e2 hr), ok_bind, s1, ok_bind, b1, ok_bind,
      setIdx_of _ (by rw [h.increases]; exact hr), ok_bind]
    -- the new row
    have w1 : rowVec n m3 row = (1 / ent n m row (colAt columns st.current)) • rowVec n m row := by
      have := b3 row
      rwa [if_neg (by omega), s4] at this
    have w2 : ∀ t < row, rowVec n m3 t = rowVec n st.matrix t - ent n st.matrix t (colAt columns st.current) •
        ((1 / ent n m row (colAt columns st.current)) • rowVec n m row) := by
      intro t ht
      have := b3 t
      rw [if_pos ht, s5 t (by omega), s4, ent_of_rowVec (s5 t (by omega)) d2] at this
      exact this
    have w1' : ∀ c < n, ent n m3 row c = 1 / ent n m row (colAt columns st.current) * ent n m row c :=
      fun c hc => congrFun w1 ⟨c, hc⟩
    have w2' : ∀ t < row, ∀ c < n, ent n m3 t c = ent n st.matrix t c - ent n st.matrix t (colAt columns st.current) *
        (1 / ent n m row (colAt columns st.current) * ent n m row c) := fun t ht c hc => congrFun (w2 t ht) ⟨c, hc⟩
    have hflagrow : (st.increases.set row true)[row]? = some true := by
      rw [List.getElem?_set_self (by rw [h.increases]; exact hr)]
    have hflagne : ∀ t, t ≠ row → (st.increases.set row true)[t]? = st.increases[t]? := fun t ht =>
      List.getElem?_set_ne (Ne.symm ht)
    have hold : ∀ j < st.current, ent n m row (colAt columns j) = 0 := fun j hj => by rw [c4 j hj]; exact e5 j hj
    refine ⟨⟨m3, columns, st.current + 1, st.increases.set row true⟩, rfl,
      ⟨b2, c2, by simpa using h.increases, ?_, ?_, ?_, ?_, ?_, ?_, ?_⟩, hflagne, fun h0 => ?_⟩
    · rw [rankOf_succ hflagrow, rankOf_set _ (le_refl _), ← h.current]
      rfl
    · intro t ht hf j hj
      simp only at hf hj ⊢
      have hjn : j < n := by omega
      have hcj := (c2.idx hjn).2
      by_cases htr : t = row
      · subst htr
        rw [rankOf_set _ (le_refl _), ← h.current, w1' _ hcj]
        by_cases hjc : j = st.current
        · rw [if_pos hjc, hjc, one_div, inv_mul_cancel₀ hne]
        · rw [if_neg hjc, hold j (by omega), mul_zero]
      · rw [hflagne t htr] at hf
        have htlt : t < row := by omega
        rw [rankOf_set _ (by omega), w2' t htlt _ hcj]
        by_cases hjc : j = st.current
        · have := h.rank_lt htlt hf
          rw [if_neg (by omega), hjc, one_div, inv_mul_cancel₀ hne]
          ring
        · rw [hold j (by omega), c4 j (by omega), h.pivot t htlt hf j (by omega)]
          ring
    · intro t ht hf j hj
      simp only at hf hj ⊢
      have hcj := (c2.idx (show j < n by omega)).2
      have htr : t ≠ row := by rintro rfl; rw [hflagrow] at hf; cases hf
      rw [hflagne t htr] at hf
      have htlt : t < row := by omega
      rw [w2' t htlt _ hcj]
      by_cases hjc : j = st.current
      · rw [hjc, one_div, inv_mul_cancel₀ hne]
        ring
      · rw [hold j (by omega), c4 j (by omega), h.rest t htlt hf j (by omega)]
        ring
    · intro h0 t ht hf
      simp only at hf ⊢
      have htr : t ≠ row := by rintro rfl; rw [hflagrow] at hf; cases hf
      rw [hflagne t htr] at hf
      have htlt : t < row := by omega
      have hz := h.zero h0 t htlt hf
      have hz' : ent n st.matrix t (colAt columns st.current) = 0 := congrFun hz ⟨_, d2⟩
      rw [w2 t htlt, hz, hz', zero_smul, sub_zero]
    · intro t ht
      simp only
      have := b3 t
      rw [if_neg (by omega), s5 t (by omega)] at this
      rw [this]
      exact h.later t (by omega)
    · intro t ht htn
      simp only
      rw [hflagne t (by omega)]
      exact h.laterFlag t (by omega) htn
    · simp only
      rw [image_lt_succ, image_lt_succ, w1]
      refine (span_shear (M := rowVec n st.matrix) (I := {t | t < row}) (fun t (ht : t < row) => ⟨_, w2 t ht⟩)).trans ?_
      rw [span_smul_insert (one_div_ne_zero hne)]
      exact span_insert_congr h.span e4
    · simp only
      rw [hflagrow, Spec.DependentRow, ← h.span]
      constructor
      · intro hf; cases hf
      · intro hdep
        exfalso
        have hw : rowVec n m row ∈ Submodule.span ℝ (rowVec n st.matrix '' {t | t < row}) := by
          have := Submodule.add_mem _ e4 hdep
          rwa [sub_add_cancel] at this
        have := h.eq_zero hr.le hn.le h0 hw (fun j hj => by
          rw [vAt_rowVec (h.columns.idx (lt_trans hj hcur)).2]; exact e5 j hj)
        exact hne (congrFun this ⟨_, d2⟩)

theorem gaussJordan_ok (heps : 0 ≤ eps) (hA : A.length = nr * n) {columns : List Nat} (hc : ColumnsOk n columns) :
    ∃ st, gaussJordan eps A nr n columns = .ok st ∧ GaussOk eps nr n A (min nr n) st ∧
      (eps = 0 → ∀ t < min nr n, st.increases[t]? = some false ↔ Spec.DependentRow n A t) := by
  have := foldlM_range (fun row (st : GaussState ℝ) => GaussOk eps nr n A row st ∧
      (eps = 0 → ∀ t < row, st.increases[t]? = some false ↔ Spec.DependentRow n A t))
    (gaussRow eps n) (min nr n) ⟨A, columns, 0, List.replicate nr false⟩
    ⟨⟨hA, hc, by simp, by simp [rankOf], by simp, by simp, by simp, fun _ _ => rfl, fun t _ ht => by simp [ht], by simp⟩, by simp⟩
    (by
      rintro row hrow st ⟨h1, h2⟩
      obtain ⟨st', h3, h4, h5, h6⟩ := gaussRow_ok heps h1 (lt_of_lt_of_le hrow (min_le_left _ _)) (lt_of_lt_of_le hrow (min_le_right _ _))
      refine ⟨st', h3, h4, fun h0 t ht => ?_⟩
      by_cases htr : t = row
      · rw [htr]; exact h6 h0
      · rw [h5 t htr]; exact h2 h0 t (by omega))
  obtain ⟨st, h1, h2, h3⟩ := this
  exact ⟨st, h1, h2, h3⟩

end

end Fiksi
