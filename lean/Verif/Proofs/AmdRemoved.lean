import Verif.Proofs.AmdMain
import Mathlib.Data.List.Sort
/-!
# Which columns and rows are removed before the ordering
-/
namespace Fiksi.Amd
open Classical

/-- A loop downwards that returned. -/
theorem reverse_inv {σ : Type} (P : Int → σ → Prop) (f : σ → Int → R σ) (n : Nat) {s s' : σ} (h0 : P n s)
    (hstep : ∀ x : Int, 0 ≤ x → x < n → ∀ s s', P (x + 1) s → f s x = .ok s' → P x s') (he : (span 0 n).reverse.foldlM f s = .ok s') : P 0 s' := by
  induction n generalizing s with
  | zero =>
    cases he
    exact h0
  | succ n ih =>
    rw [span_succ, List.reverse_append, List.reverse_singleton, List.singleton_append, List.foldlM_cons, zero_add] at he
    cases hf : f s n with
    | error e => rw [hf] at he; cases he
    | ok s1 =>
      rw [hf, ok_bind] at he
      exact ih (hstep n (by omega) (by push_cast; omega) s s1 (by push_cast at h0; exact h0) hf)
        (fun x hx hx' => hstep x hx (by push_cast; omega)) he

/-- The columns that are out of use are `L`, and their positions follow each other from `k` on up to the end. -/
structure Tail (n : Int) (C : Int → ColamdCol) (k : Int) (L : List Int) : Prop where
  count : k = n - L.length
  dead : ∀ c, 0 ≤ c → c < n → ((C c).start = -1 ↔ c ∈ L)
  range : ∀ c ∈ L, 0 ≤ c ∧ c < n
  place : ∀ i (h : i < L.length), (C L[i]).score = k + i

theorem Tail.nodup {n k : Int} {C : Int → ColamdCol} {L : List Int} (h : Tail n C k L) : L.Nodup := List.nodup_iff_injective_get.2 fun i j hij => by
  have h1 := h.place i.1 i.2
  have h2 := h.place j.1 j.2
  simp only [List.get_eq_getElem] at hij
  rw [hij, h2] at h1
  exact Fin.ext (by omega)

/-- What one step of a loop that removes columns does: nothing, or column `c` is removed. -/
structure Removes (C : Int → ColamdCol) (k : Int) (C' : Int → ColamdCol) (k' : Int) (c : Int) : Prop where
  other : ∀ d, d ≠ c → C' d = C d
  self : (0 ≤ (C c).start ∧ (C' c).start = -1 ∧ (C' c).score = k - 1 ∧ k' = k - 1) ∨
    ((C' c).start = (C c).start ∧ ((C c).start = -1 → (C' c).score = (C c).score) ∧ k' = k)

theorem Removes.refl (C : Int → ColamdCol) (k c : Int) : Removes C k C k c := ⟨fun _ _ => rfl, Or.inr ⟨rfl, fun _ => rfl, rfl⟩⟩

/-- The columns from `x` on that `C` has and `C'` has not. -/
noncomputable def gone (n : Int) (C C' : Int → ColamdCol) (x : Int) : List Int :=
  (span x (n - x).toNat).filter (fun c => 0 ≤ (C c).start ∧ (C' c).start = -1)

theorem Tail.step {n k k' : Int} {C C' : Int → ColamdCol} {L : List Int} {c : Int} (h : Tail n C k L) (hr : Removes C k C' k' c) (c0 : 0 ≤ c) (cn : c < n) :
    Tail n C' k' (if 0 ≤ (C c).start ∧ (C' c).start = -1 then c :: L else L) := by
  rcases hr.self with ⟨q1, q2, q3, q4⟩ | ⟨q1, q2, q3⟩
  · rw [if_pos ⟨q1, q2⟩]
    have hnot : c ∉ L := fun q => by
      have := (h.dead c c0 cn).2 q
      omega
    refine ⟨by rw [List.length_cons]; have := h.count; push_cast; omega, fun d d0 dn => ?_, fun d hd => ?_, fun i hi => ?_⟩
    · rcases eq_or_ne d c with rfl | hne
      · simp [q2]
      · rw [hr.other d hne, h.dead d d0 dn, List.mem_cons]
        simp [hne]
    · rcases List.mem_cons.1 hd with rfl | hd
      · exact ⟨c0, cn⟩
      · exact h.range d hd
    · cases i with
      | zero => simp only [List.getElem_cons_zero, Nat.cast_zero, add_zero]; omega
      | succ i =>
        simp only [List.getElem_cons_succ]
        rw [List.length_cons] at hi
        rw [hr.other _ (fun q => hnot (q ▸ List.getElem_mem _)), h.place i (by omega)]
        push_cast
        omega
  · have hno : ¬ (0 ≤ (C c).start ∧ (C' c).start = -1) := by omega
    rw [if_neg hno, q3]
    refine ⟨h.count, fun d d0 dn => ?_, h.range, fun i hi => ?_⟩
    · rcases eq_or_ne d c with rfl | hne
      · rw [q1]; exact h.dead d d0 dn
      · rw [hr.other d hne]; exact h.dead d d0 dn
    · have hm := h.range _ (List.getElem_mem hi)
      have hd := (h.dead _ hm.1 hm.2).2 (List.getElem_mem hi)
      rcases eq_or_ne L[i] c with he | hne
      · rw [he] at hd ⊢
        rw [q2 hd, ← he]
        exact h.place i hi
      · rw [hr.other _ hne]; exact h.place i hi

/-- A loop downwards over all columns that removes some of them. -/
theorem tail_loop {σ : Type} {n : Int} (hn : 0 ≤ n) (cols : σ → Int → ColamdCol) (k : σ → Int) (f : σ → Int → R σ)
    {s s' : σ} (hf : ∀ x t t', 0 ≤ x → x < n → cols t x = cols s x → f t x = .ok t' → Removes (cols t) (k t) (cols t') (k t') x) {L : List Int}
    (h : Tail n (cols s) (k s) L) (he : (span 0 n.toNat).reverse.foldlM f s = .ok s') :
    Tail n (cols s') (k s') (gone n (cols s) (cols s') 0 ++ L) ∧ ∀ c, 0 ≤ c → c < n → ∃ t t', cols t c = cols s c ∧ f t c = .ok t' ∧ cols t' c = cols s' c := by
  have key := reverse_inv (fun x t => ((∀ d, d < x → cols t d = cols s d) ∧ ∀ c, x ≤ c → c < n → ∃ u u', cols u c = cols s c ∧ f u c = .ok u' ∧ cols u' c = cols t c) ∧
      Tail n (cols t) (k t) (gone n (cols s) (cols t) x ++ L)) f n.toNat (s := s) (s' := s')
    ⟨⟨fun d _ => rfl, fun c _ _ => by omega⟩, by
      rw [show ((n.toNat : Nat) : Int) = n by omega, gone, sub_self, Int.toNat_zero, span_zero]
      exact h⟩ (by
    rintro x x0 xn t t' ⟨⟨i1, i3⟩, i2⟩ ht
    have hr := hf x t t' x0 (by omega) (i1 x (by omega)) ht
    refine ⟨⟨fun d hd => by rw [hr.other d (by omega), i1 d (by omega)], fun c cx cn => ?_⟩, ?_⟩
    · rcases eq_or_ne c x with rfl | hne
      · exact ⟨t, t', i1 c (by omega), ht, rfl⟩
      · rw [hr.other c hne]
        exact i3 c (by omega) cn
    have hst := i2.step hr x0 (by omega)
    have hg : gone n (cols s) (cols t') x = if 0 ≤ (cols t x).start ∧ (cols t' x).start = -1 then x :: gone n (cols s) (cols t) (x + 1) else gone n (cols s) (cols t) (x + 1) := by
      unfold gone
      rw [show (n - x).toNat = (n - (x + 1)).toNat + 1 by omega, span_cons, List.filter_cons, i1 x (by omega)]
      have hc : (span (x + 1) (n - (x + 1)).toNat).filter (fun c => decide (0 ≤ (cols s c).start ∧ (cols t' c).start = -1)) =
          (span (x + 1) (n - (x + 1)).toNat).filter (fun c => decide (0 ≤ (cols s c).start ∧ (cols t c).start = -1)) := by
        refine List.filter_congr fun c hc => ?_
        rw [hr.other c]
        simp only [span, List.mem_map, List.mem_range] at hc
        obtain ⟨i, _, rfl⟩ := hc
        omega
      rw [hc]
      simp only [decide_eq_true_eq]
    rw [hg]
    split
    · rename_i q
      rw [if_pos q] at hst
      exact hst
    · rename_i q
      rw [if_neg q] at hst
      exact hst) he
  exact ⟨key.2, key.1.2⟩

theorem mem_span {s x : Int} {n : Nat} : x ∈ span s n ↔ s ≤ x ∧ x < s + n := by
  simp only [span, List.mem_map, List.mem_range]
  constructor
  · rintro ⟨i, hi, rfl⟩
    omega
  · rintro ⟨h1, h2⟩
    exact ⟨(x - s).toNat, by omega, by omega⟩

theorem write_ok {α : Type} {m m' : Mem α} {i : Int} {x : α} (h : m.write i x = .ok m') : m' = m.put i x := by
  unfold Mem.write at h
  split at h
  · cases h; rfl
  · cases h

theorem read_ok {α : Type} {m : Mem α} {i : Int} {x : α} (h : m.read i = .ok x) : x = m.get i := by
  unfold Mem.read at h
  split at h
  · cases h; rfl
  · cases h

/-- A step that either keeps the state or removes column `x`. -/
theorem removes_kill {C : Mem ColamdCol} {k x : Int} (hs : 0 ≤ (C.get x).start) : Removes C.get k (C.put x { C.get x with score := k - 1, start := -1 }).get (k - 1) x :=
  ⟨fun d hd => Mem.put_get_ne _ _ hd, Or.inl ⟨hs, by rw [Mem.put_get_self], by rw [Mem.put_get_self], rfl⟩⟩

theorem i32_ok {x y : Int} (h : i32 x = .ok y) : y = x := by
  unfold i32 at h
  split at h
  · cases h; rfl
  · cases h

theorem killEmpty_step {s s' : Mem ColamdCol × Int} {x : Int} (hs : 0 ≤ (s.1.get x).start) (h : killEmptyColumn s x = .ok s') :
    Removes s.1.get s.2 s'.1.get s'.2 x ∧ ((s'.1.get x).start = -1 ↔ (s.1.get x).length = 0) := by
  obtain ⟨C, k⟩ := s
  unfold killEmptyColumn at h
  simp only at h hs ⊢
  obtain ⟨col, h1, h⟩ := bind_eq_ok.1 h
  rw [read_ok h1] at h
  split at h
  · rename_i hl
    obtain ⟨k', hk, h⟩ := bind_eq_ok.1 h
    cases i32_ok hk
    obtain ⟨C', h2, h⟩ := bind_eq_ok.1 h
    cases h
    rw [write_ok h2]
    exact ⟨removes_kill hs, by simp [hl]⟩
  · rename_i hl
    cases h
    exact ⟨Removes.refl _ _ _, by simp only [hl, iff_false]; omega⟩

theorem killDense_step {tc : Int} {a : Mem Int} {s s' : Mem ColamdRow × Mem ColamdCol × Int} {x : Int} (h : killDenseColumn tc a s x = .ok s') :
    Removes s.2.1.get s.2.2 s'.2.1.get s'.2.2 x ∧ ((s'.2.1.get x).start = -1 ↔ (s.2.1.get x).start = -1 ∨ (0 ≤ (s.2.1.get x).start ∧ tc < (s.2.1.get x).length)) := by
  obtain ⟨R, C, k⟩ := s
  unfold killDenseColumn at h
  simp only at h ⊢
  obtain ⟨col, h1, h⟩ := bind_eq_ok.1 h
  rw [read_ok h1] at h
  split at h
  · rename_i hl
    obtain ⟨k', hk, h⟩ := bind_eq_ok.1 h
    cases i32_ok hk
    obtain ⟨R', h2, h⟩ := bind_eq_ok.1 h
    obtain ⟨C', h3, h⟩ := bind_eq_ok.1 h
    cases h
    rw [write_ok h3]
    exact ⟨removes_kill hl.1, by simp [hl]⟩
  · rename_i hl
    cases h
    exact ⟨Removes.refl _ _ _, by simp only [hl, or_false]⟩

theorem score_step {n : Int} {rows : Mem ColamdRow} {s s' : Mem ColamdCol × Mem Int × Int} {x : Int} (h : scoreColumn n rows s x = .ok s') :
    Removes s.1.get s.2.2 s'.1.get s'.2.2 x := by
  obtain ⟨C, a, k⟩ := s
  unfold scoreColumn at h
  simp only at h ⊢
  obtain ⟨col, h1, h⟩ := bind_eq_ok.1 h
  rw [read_ok h1] at h
  split at h
  · rename_i hl
    obtain ⟨t, h2, h⟩ := bind_eq_ok.1 h
    obtain ⟨len, hlen, h⟩ := bind_eq_ok.1 h
    split at h
    · obtain ⟨k', hk, h⟩ := bind_eq_ok.1 h
      cases i32_ok hk
      obtain ⟨C', h3, h⟩ := bind_eq_ok.1 h
      cases h
      rw [write_ok h3]
      exact removes_kill hl
    · obtain ⟨C', h3, h⟩ := bind_eq_ok.1 h
      cases h
      rw [write_ok h3]
      refine ⟨fun d hd => Mem.put_get_ne _ _ hd, Or.inr ⟨by rw [Mem.put_get_self], fun q => by omega, rfl⟩⟩
  · cases h
    exact Removes.refl _ _ _

/-- The rows that `killDenseRow` removes. -/
theorem killDenseRows_exact {m tr : Int} (hm : 0 ≤ m) {rows rows' : Mem ColamdRow} {nRow n2 md : Int} (he : (span 0 m.toNat).foldlM (killDenseRow tr) (rows, nRow, 0) = .ok (rows', n2, md))
    (hr : m ≤ rows.size) (hnr : m ≤ nRow ∧ nRow < 2 ^ 31) :
    n2 = nRow - ((Finset.Ico 0 m).filter (fun r => tr < (rows.get r).degree ∨ (rows.get r).degree = 0)).card ∧
    ∀ r, 0 ≤ r → r < m → (rows'.get r).mark = if tr < (rows.get r).degree ∨ (rows.get r).degree = 0 then -1 else (rows.get r).mark := by
  obtain ⟨s, e, h1, h2, h3, h4⟩ := foldlM_span (fun x (s : Mem ColamdRow × Int × Int) => s.1.size = rows.size ∧
      s.2.1 = nRow - ((Finset.Ico 0 x).filter (fun r => tr < (rows.get r).degree ∨ (rows.get r).degree = 0)).card ∧
      (∀ r, 0 ≤ r → r < x → (s.1.get r).mark = if tr < (rows.get r).degree ∨ (rows.get r).degree = 0 then -1 else (rows.get r).mark) ∧
      ∀ r, x ≤ r → s.1.get r = rows.get r) (killDenseRow tr) 0 m m.toNat (by omega) (rows, nRow, 0)
      ⟨rfl, by simp, fun r _ _ => by omega, fun r _ => rfl⟩ (by
    rintro x x0 xn ⟨rs, k, md⟩ ⟨i1, i2, i3, i4⟩
    simp only at i1 i2 i3 i4
    have ex := i4 x (le_refl _)
    unfold killDenseRow
    simp only
    have hcard : (((Finset.Ico 0 x).filter (fun r => tr < (rows.get r).degree ∨ (rows.get r).degree = 0)).card : Int) ≤ x := by
      have h : ((Finset.Ico 0 x).filter (fun r => tr < (rows.get r).degree ∨ (rows.get r).degree = 0)).card ≤ (Finset.Ico 0 x).card := Finset.card_le_card (Finset.filter_subset _ _)
      rw [Int.card_Ico] at h
      omega
    rw [Mem.read_of x0 (by omega), ok_bind, ex, Ico_right_succ 0 x x0, Finset.filter_insert]
    by_cases hl : tr < (rows.get x).degree ∨ (rows.get x).degree = 0
    · rw [if_pos hl, if_pos hl, Mem.write_of _ x0 (by omega), ok_bind, i32_of (by omega) (by omega), ok_bind]
      refine ⟨_, rfl, i1, ?_, fun r r0 rx => ?_, fun r rx => ?_⟩
      · rw [Finset.card_insert_of_notMem (by simp)]
        push_cast
        omega
      · simp only
        rcases eq_or_ne r x with rfl | hne
        · rw [Mem.put_get_self, if_pos hl]
        · rw [Mem.put_get_ne _ _ hne]; exact i3 r r0 (by omega)
      · simp only
        rw [Mem.put_get_ne _ _ (by omega)]
        exact i4 r (by omega)
    · rw [if_neg hl, if_neg hl]
      refine ⟨_, rfl, i1, i2, fun r r0 rx => ?_, fun r rx => i4 r (by omega)⟩
      simp only
      rcases eq_or_ne r x with rfl | hne
      · rw [if_neg hl, ex]
      · exact i3 r r0 (by omega))
  rw [he] at e
  cases e
  exact ⟨h2, h3⟩

section
variable {m n nnz : Int}

/-- The number of columns with at most `tc` entries that contain row `r`. -/
noncomputable def sparseDegree (n tc : Int) (C : Int → ColamdCol) (A : Int → Int) (r : Int) : Int :=
  ((Finset.Ico 0 n).filter (fun c => InCol C A c r ∧ (C c).length ≤ tc)).card

/-- `init_scoring` removes the empty columns, the dense columns, the empty and dense rows, and the columns that have become empty. -/
theorem initScoring_removed {tr tc : Int} {b b' : ColamdBuffers} {nRow2 n2 maxDeg : Int} (hst : Start m n nnz b.rows.get b.cols.get b.a.get) (hr : m ≤ b.rows.size)
    (hc : n ≤ b.cols.size) (ha : nnz ≤ b.a.size) (hh : (b.head.size : Int) = n + 1) (he : initScoring m n tr tc b = .ok (b', nRow2, n2, maxDeg)) :
    nRow2 = m - ((Finset.Ico 0 m).filter (fun r => tr < sparseDegree n tc b.cols.get b.a.get r ∨ sparseDegree n tc b.cols.get b.a.get r = 0)).card ∧
    (∀ c, 0 ≤ c → c < n → (b'.cols.get c).thickness = 1 ∧ (0 ≤ (b'.cols.get c).start ∨ (b'.cols.get c).start = -1)) ∧
    Tail n b'.cols.get n2
      ((span 0 n.toNat).filter (fun c => (b.cols.get c).length ≠ 0 ∧ (b.cols.get c).length ≤ tc ∧
          ∀ r, InCol b.cols.get b.a.get c r → tr < sparseDegree n tc b.cols.get b.a.get r ∨ sparseDegree n tc b.cols.get b.a.get r = 0) ++
        ((span 0 n.toNat).filter (fun c => (b.cols.get c).length ≠ 0 ∧ tc < (b.cols.get c).length) ++
          (span 0 n.toNat).filter (fun c => (b.cols.get c).length = 0))) ∧
    (∀ c, AliveCol n b'.cols.get c → (b'.cols.get c).score = min n (∑ r ∈ (Finset.Ico 0 m).filter (fun r => InCol b.cols.get b.a.get c r ∧
      ¬ (tr < sparseDegree n tc b.cols.get b.a.get r ∨ sparseDegree n tc b.cols.get b.a.get r = 0)), (sparseDegree n tc b.cols.get b.a.get r - 1))) ∧
    ∀ c, AliveCol n b'.cols.get c → ∀ r, InCol b'.cols.get b'.a.get c r ↔ InCol b.cols.get b.a.get c r ∧
      ¬ (tr < sparseDegree n tc b.cols.get b.a.get r ∨ sparseDegree n tc b.cols.get b.a.get r = 0) := by
  have hm0 := hst.pattern.rows0
  have hn0 := hst.pattern.cols0
  unfold initScoring at he
  obtain ⟨cols1, k1, e1, s1, r1, u1, c1⟩ := killEmpty_of hst b.cols rfl hc
  rw [e1, ok_bind] at he
  simp only at he
  obtain ⟨rows2, cols2, k2, e2, sr2, sc2, r2, u2, d2⟩ := killDense_of hst tc b.a rfl ha b.rows rfl hr cols1 (by omega) r1 u1 c1
  rw [e2, ok_bind] at he
  simp only at he
  have hsm := hst.pattern.small
  obtain ⟨rows3, nRow2', maxDeg', e3, s3, md3, nr3, q3, d3⟩ := killDenseRows_of hm0 tr rows2 (by omega) m ⟨le_refl _, hsm.1⟩
  rw [e3, ok_bind] at he
  simp only at he
  have hP := hst.restrict u2
  have hrr : RowsReady m n b.rows.get cols2.get b.a.get rows3.get := by
    refine ⟨fun r r0 rm => ?_, fun r r0 rm => ?_⟩
    · rw [q3 r, d2 r r0 rm]; exact ⟨rfl, rfl⟩
    · rw [q3 r, d2 r r0 rm]
  have hdeg : ∀ c r, AliveCol n cols2.get c → InCol cols2.get b.a.get c r → 1 ≤ (rows3.get r).degree ∧ (rows3.get r).degree ≤ n := fun c r hc hin => by
    have hrow := hP.colRow c hc r hin
    rw [hrr.degree r hrow.1 hrow.2.1]
    have : 0 < (colsOf n cols2.get b.a.get r).card := Finset.card_pos.2 ⟨c, mem_colsOf.2 ⟨hc, hin⟩⟩
    have := card_colsOf hn0 (C := cols2.get) (A := b.a.get) (r := r)
    omega
  obtain ⟨cols4, a4, k4, e4, sc4, sa4, hsc⟩ := scoreColumns_of hP b.a rfl ha rows3 (by omega) cols2 rfl (by omega) r2 hdeg
  rw [e4, ok_bind] at he
  simp only at he
  rw [i32_of (by omega) (by omega), ok_bind] at he
  obtain ⟨head5, e5, s5, h5⟩ := fillHead_of hn0 b.head (by omega)
  rw [e5, ok_bind] at he
  obtain ⟨cols6, head6, e6, s6, sh6, same, lists⟩ := listColumns_of hn0 cols4 (by omega) head5 (by omega) h5 (fun c hc => by
    rw [hsc.cols c hc]
    exact startScore_range hrr hP ((hsc.live c).1 hc).1)
  rw [e6, ok_bind] at he
  cases he
  -- the columns after each loop
  have t0 : Tail n b.cols.get n [] := ⟨by simp, fun c c0 cn => by
    have := hst.alive c c0 cn
    simp only [List.not_mem_nil, iff_false]
    omega, by simp, fun i hi => by simp at hi⟩
  obtain ⟨t1, v1⟩ := tail_loop hn0 (fun s : Mem ColamdCol × Int => s.1.get) (fun s => s.2) killEmptyColumn (s := (b.cols, n)) (fun x t t' x0 xn ex et =>
    (killEmpty_step (by rw [ex]; exact hst.alive x x0 xn) et).1) t0 e1
  obtain ⟨t2, v2⟩ := tail_loop hn0 (fun s : Mem ColamdRow × Mem ColamdCol × Int => s.2.1.get) (fun s => s.2.2) (killDenseColumn tc b.a) (s := (b.rows, cols1, k1))
    (fun x t t' x0 xn ex et => (killDense_step et).1) t1 e2
  obtain ⟨t4, -⟩ := tail_loop hn0 (fun s : Mem ColamdCol × Mem Int × Int => s.1.get) (fun s => s.2.2) (scoreColumn n rows3) (s := (cols2, b.a, k2))
    (fun x t t' x0 xn ex et => score_step et) t2 e4
  simp only at t1 v1 t2 v2 t4
  have w1 : ∀ c, 0 ≤ c → c < n → ((cols1.get c).start = -1 ↔ (b.cols.get c).length = 0) := fun c c0 cn => by
    obtain ⟨t, t', x1, x2, x3⟩ := v1 c c0 cn
    rw [← x3, ← x1]
    exact (killEmpty_step (by rw [x1]; exact hst.alive c c0 cn) x2).2
  have a1 : ∀ c, 0 ≤ c → c < n → (b.cols.get c).length ≠ 0 → cols1.get c = b.cols.get c := fun c c0 cn hl => by
    refine u1 c ⟨c0, cn, (r1.kind c c0 cn).resolve_right fun q => hl ((w1 c c0 cn).1 q)⟩
  have w2 : ∀ c, 0 ≤ c → c < n → ((cols2.get c).start = -1 ↔ (b.cols.get c).length = 0 ∨ tc < (b.cols.get c).length) := fun c c0 cn => by
    obtain ⟨t, t', x1, x2, x3⟩ := v2 c c0 cn
    rw [← x3, (killDense_step x2).2, x1, w1 c c0 cn]
    by_cases hl : (b.cols.get c).length = 0
    · simp [hl]
    · have := hst.alive c c0 cn
      rw [a1 c c0 cn hl]
      simp [hl, this]
  have a2 : ∀ c, 0 ≤ c → c < n → (AliveCol n cols2.get c ↔ (b.cols.get c).length ≠ 0 ∧ (b.cols.get c).length ≤ tc) := fun c c0 cn => by
    have hw := w2 c c0 cn
    have hk := r2.kind c c0 cn
    constructor
    · intro q
      have := q.2.2
      omega
    · intro q
      exact ⟨c0, cn, by omega⟩
  have hin2 : ∀ c r, AliveCol n cols2.get c → (InCol cols2.get b.a.get c r ↔ InCol b.cols.get b.a.get c r) := fun c r hc => by
    unfold InCol
    rw [u2 c hc]
  have hd : ∀ r, ((colsOf n cols2.get b.a.get r).card : Int) = sparseDegree n tc b.cols.get b.a.get r := fun r => by
    unfold sparseDegree
    congr 2
    ext c
    rw [mem_colsOf, Finset.mem_filter, Finset.mem_Ico]
    constructor
    · rintro ⟨q1, q2⟩
      exact ⟨⟨q1.1, q1.2.1⟩, (hin2 c r q1).1 q2, ((a2 c q1.1 q1.2.1).1 q1).2⟩
    · rintro ⟨⟨c0, cn⟩, q1, q2⟩
      have hne : (b.cols.get c).length ≠ 0 := fun q => by
        unfold InCol at q1
        rw [q] at q1
        exact has_zero q1
      have hal := (a2 c c0 cn).2 ⟨hne, q2⟩
      exact ⟨hal, (hin2 c r hal).2 q1⟩
  have hdr : ∀ r, 0 ≤ r → r < m → (rows2.get r).degree = sparseDegree n tc b.cols.get b.a.get r := fun r r0 rm => by
    rw [d2 r r0 rm, ← hd r]
  have hmk : ∀ r, 0 ≤ r → r < m → (rows2.get r).mark = 0 := fun r r0 rm => by
    rw [d2 r r0 rm]
    exact hst.marks r r0 rm
  obtain ⟨g1, g2⟩ := killDenseRows_exact hm0 e3 (by omega) ⟨le_refl _, hsm.1⟩
  have g3 : ∀ r, 0 ≤ r → r < m → (0 ≤ (rows3.get r).mark ↔ ¬ (tr < sparseDegree n tc b.cols.get b.a.get r ∨ sparseDegree n tc b.cols.get b.a.get r = 0)) := fun r r0 rm => by
    rw [g2 r r0 rm, hdr r r0 rm, hmk r r0 rm]
    split
    · rename_i q
      simp [q]
    · rename_i q
      simp [q]
  refine ⟨?_, fun c c0 cn => ?_, ?_, fun c hc => ?_, fun c hc r => ?_⟩
  rotate_left 4
  · simp only at hc ⊢
    rw [same.aliveCol] at hc
    have hal := ((hsc.live c).1 hc).1
    rw [same.inCol]
    unfold InCol
    rw [hsc.cols c hc]
    simp only
    rw [(hsc.held c hc).2.2 r, mem_keptRows, hin2 c r hal]
    constructor
    · rintro ⟨y1, y2⟩
      have hrow := hP.colRow c hal r ((hin2 c r hal).2 y1)
      exact ⟨y1, (g3 r hrow.1 hrow.2.1).1 y2⟩
    · rintro ⟨y1, y2⟩
      have hrow := hP.colRow c hal r ((hin2 c r hal).2 y1)
      exact ⟨y1, (g3 r hrow.1 hrow.2.1).2 y2⟩
  rotate_left 3
  · simp only at hc ⊢
    rw [same.aliveCol] at hc
    have hal := ((hsc.live c).1 hc).1
    rw [same.score, hsc.cols c hc]
    simp only
    unfold startScore
    congr 1
    have hk : keptRows rows3.get cols2.get b.a.get c = (Finset.Ico 0 m).filter (fun r => InCol b.cols.get b.a.get c r ∧
        ¬ (tr < sparseDegree n tc b.cols.get b.a.get r ∨ sparseDegree n tc b.cols.get b.a.get r = 0)) := by
      ext r
      rw [mem_keptRows, Finset.mem_filter, Finset.mem_Ico]
      constructor
      · rintro ⟨y1, y2⟩
        have hrow := hP.colRow c hal r y1
        exact ⟨⟨hrow.1, hrow.2.1⟩, (hin2 c r hal).1 y1, (g3 r hrow.1 hrow.2.1).1 y2⟩
      · rintro ⟨y1, y2, y3⟩
        exact ⟨(hin2 c r hal).2 y2, (g3 r y1.1 y1.2).2 y3⟩
    rw [hk]
    refine Finset.sum_congr rfl fun r hr' => ?_
    have hr'' := Finset.mem_Ico.1 (Finset.mem_filter.1 hr').1
    rw [hrr.degree r hr''.1 hr''.2, hd r]
  · rw [g1]
    congr 3
    refine Finset.filter_congr fun r hr' => ?_
    rw [Finset.mem_Ico] at hr'
    rw [hdr r hr'.1 hr'.2]
  · simp only
    rw [same.thickness, hsc.removed.thick c c0 cn, same.start]
    exact ⟨rfl, hsc.removed.kind c c0 cn⟩
  · have hlist : gone n cols2.get cols4.get 0 ++ (gone n cols1.get cols2.get 0 ++ (gone n b.cols.get cols1.get 0 ++ [])) =
        (span 0 n.toNat).filter (fun c => (b.cols.get c).length ≠ 0 ∧ (b.cols.get c).length ≤ tc ∧
          ∀ r, InCol b.cols.get b.a.get c r → tr < sparseDegree n tc b.cols.get b.a.get r ∨ sparseDegree n tc b.cols.get b.a.get r = 0) ++
        ((span 0 n.toNat).filter (fun c => (b.cols.get c).length ≠ 0 ∧ tc < (b.cols.get c).length) ++
          (span 0 n.toNat).filter (fun c => (b.cols.get c).length = 0)) := by
      unfold gone
      rw [List.append_nil, sub_zero]
      congr 1
      · refine List.filter_congr fun c hc' => ?_
        rw [mem_span] at hc'
        have c0 : 0 ≤ c := hc'.1
        have cn : c < n := by omega
        rw [decide_eq_decide]
        have hk := hsc.removed.kind c c0 cn
        have hl := hsc.live c
        have hx : (0 ≤ (cols2.get c).start ∧ (cols4.get c).start = -1) ↔ AliveCol n cols2.get c ∧ ¬ AliveCol n cols4.get c := by
          unfold AliveCol
          constructor
          · rintro ⟨y1, y2⟩
            exact ⟨⟨c0, cn, y1⟩, fun q => by omega⟩
          · rintro ⟨y1, y2⟩
            refine ⟨y1.2.2, hk.resolve_left fun q => y2 ⟨c0, cn, q⟩⟩
        rw [hx, hl, a2 c c0 cn]
        constructor
        · rintro ⟨y1, y2⟩
          refine ⟨y1.1, y1.2, fun r hr' => ?_⟩
          have hal := (a2 c c0 cn).2 y1
          have hin := (hin2 c r hal).2 hr'
          have hrow := hP.colRow c hal r hin
          by_contra y3
          refine y2 ⟨y1, fun y4 => ?_⟩
          have : r ∈ keptRows rows3.get cols2.get b.a.get c := mem_keptRows.2 ⟨hin, (g3 r hrow.1 hrow.2.1).2 y3⟩
          rw [y4] at this
          simp at this
        · rintro ⟨y1, y2, y3⟩
          refine ⟨⟨y1, y2⟩, fun y4 => y4.2 ?_⟩
          have hal := (a2 c c0 cn).2 ⟨y1, y2⟩
          rw [Finset.eq_empty_iff_forall_notMem]
          intro r hr'
          obtain ⟨z1, z2⟩ := mem_keptRows.1 hr'
          have hrow := hP.colRow c hal r z1
          exact (g3 r hrow.1 hrow.2.1).1 z2 (y3 r ((hin2 c r hal).1 z1))
      · congr 1
        · refine List.filter_congr fun c hc' => ?_
          rw [mem_span] at hc'
          have c0 : 0 ≤ c := hc'.1
          have cn : c < n := by omega
          rw [decide_eq_decide, w2 c c0 cn]
          have hk := r1.kind c c0 cn
          have := w1 c c0 cn
          constructor
          · rintro ⟨y1, y2⟩
            exact ⟨by omega, y2.resolve_left (by omega)⟩
          · rintro ⟨y1, y2⟩
            exact ⟨by omega, Or.inr y2⟩
        · refine List.filter_congr fun c hc' => ?_
          rw [mem_span] at hc'
          have c0 : 0 ≤ c := hc'.1
          have cn : c < n := by omega
          rw [decide_eq_decide, w1 c c0 cn]
          exact ⟨fun y => y.2, fun y => ⟨hst.alive c c0 cn, y⟩⟩
    rw [← hlist]
    refine ⟨t4.count, fun c c0 cn => ?_, t4.range, fun i hi => ?_⟩
    · simp only
      rw [same.start]
      exact t4.dead c c0 cn
    · simp only
      rw [same.score]
      exact t4.place i hi

theorem sparseDegree_eq {a p : Int → Int} {C : Int → ColamdCol} {A : Int → Int} {tc : Int} (hl : ∀ c, 0 ≤ c → c < n → (C c).length = p (c + 1) - p c)
    (hin : ∀ c r, 0 ≤ c → c < n → (InCol C A c r ↔ Spec.Entry a p r c)) (r : Int) : sparseDegree n tc C A r = Spec.rowCount a p n (tc < ·) r := by
  unfold sparseDegree Spec.rowCount
  congr 2
  ext c
  simp only [Finset.mem_filter]
  refine and_congr_right fun hc => ?_
  rw [Finset.mem_Ico] at hc
  rw [hin c r hc.1 hc.2, hl c hc.1 hc.2, not_lt]

theorem removed_eq {a p : Int → Int} {C : Int → ColamdCol} {A : Int → Int} {tr tc : Int} (hl : ∀ c, 0 ≤ c → c < n → (C c).length = p (c + 1) - p c)
    (hin : ∀ c r, 0 ≤ c → c < n → (InCol C A c r ↔ Spec.Entry a p r c)) :
    (((Finset.Ico 0 m).filter (fun r => tr < sparseDegree n tc C A r ∨ sparseDegree n tc C A r = 0)).card : Int) = Spec.ignoredRows a p m n (tr < ·) (tc < ·) ∧
    ((span 0 n.toNat).filter (fun c => (C c).length ≠ 0 ∧ (C c).length ≤ tc ∧
          ∀ r, InCol C A c r → tr < sparseDegree n tc C A r ∨ sparseDegree n tc C A r = 0) ++
        ((span 0 n.toNat).filter (fun c => (C c).length ≠ 0 ∧ tc < (C c).length) ++
          (span 0 n.toNat).filter (fun c => (C c).length = 0))) = Spec.lastColumns a p n (tr < ·) (tc < ·) := by
  have hd : sparseDegree n tc C A = Spec.rowCount a p n (tc < ·) := funext (sparseDegree_eq hl hin)
  rw [hd]
  refine ⟨?_, ?_⟩
  · unfold Spec.ignoredRows
    congr 2
    ext r
    simp only [Finset.mem_filter]
    rfl
  unfold Spec.lastColumns
  congr 1
  · refine List.filter_congr fun c hc => ?_
    rw [mem_span] at hc
    rw [decide_eq_decide, hl c hc.1 (by omega), not_lt]
    refine and_congr_right fun _ => and_congr_right fun _ => forall_congr' fun r => ?_
    rw [hin c r hc.1 (by omega)]
    rfl
  · congr 1
    · refine List.filter_congr fun c hc => ?_
      rw [mem_span] at hc
      rw [decide_eq_decide, hl c hc.1 (by omega)]
    · refine List.filter_congr fun c hc => ?_
      rw [mem_span] at hc
      rw [decide_eq_decide, hl c hc.1 (by omega)]

theorem startScore_eq {a p : Int → Int} {C : Int → ColamdCol} {A : Int → Int} {tr tc : Int} (hl : ∀ c, 0 ≤ c → c < n → (C c).length = p (c + 1) - p c)
    (hin : ∀ c r, 0 ≤ c → c < n → (InCol C A c r ↔ Spec.Entry a p r c)) {c : Int} (c0 : 0 ≤ c) (cn : c < n) :
    min n (∑ r ∈ (Finset.Ico 0 m).filter (fun r => InCol C A c r ∧ ¬ (tr < sparseDegree n tc C A r ∨ sparseDegree n tc C A r = 0)), (sparseDegree n tc C A r - 1)) =
      Spec.initialScore a p m n (tr < ·) (tc < ·) c := by
  have hd : sparseDegree n tc C A = Spec.rowCount a p n (tc < ·) := funext (sparseDegree_eq hl hin)
  rw [hd]
  unfold Spec.initialScore
  congr 2
  ext r
  simp only [Finset.mem_filter]
  rw [hin c r c0 cn]
  rfl

/-- A list whose last elements are given is a suffix. -/
theorem suffix_of_get {α : Type} {l L : List α} (hlen : L.length ≤ l.length) (h : ∀ i (hi : i < L.length), l[l.length - L.length + i]? = some L[i]) : L <:+ l := by
  refine ⟨l.take (l.length - L.length), ?_⟩
  have : L = l.drop (l.length - L.length) := by
    refine List.ext_getElem? fun i => ?_
    rw [List.getElem?_drop]
    by_cases hi : i < L.length
    · rw [h i hi, List.getElem?_eq_getElem hi]
    · rw [List.getElem?_eq_none (by omega), List.getElem?_eq_none (by omega)]
  exact (congrArg _ this).trans (List.take_append_drop _ _)

end
end Fiksi.Amd
