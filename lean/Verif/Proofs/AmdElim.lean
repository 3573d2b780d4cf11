import Verif.Proofs.AmdEliminate
/-!
# One pivot: from the chosen pivot to the next state
-/
namespace Fiksi.Amd
open Classical

theorem bind_ite {α β : Type} {c : Prop} [Decidable c] {x y : R α} {k : α → R β} : (if c then x >>= k else y >>= k) = (if c then x else y) >>= k := by
  split <;> rfl

theorem bind_ite₂ {α β γ : Type} {c : Prop} [Decidable c] {x : R α} {f : α → R β} {y : R β} {k : β → R γ} :
    (if c then x >>= fun l => f l >>= k else y >>= k) = (if c then x >>= f else y) >>= k := by
  split
  · cases x <;> rfl
  · rfl

/-- What the elimination leaves besides the pattern. -/
structure Rest (m n aLen : Int) (s : OrderState) (P t : Int) (s' : OrderState) : Prop where
  rsize : m ≤ s'.b.rows.size
  csize : n ≤ s'.b.cols.size
  asize : aLen ≤ s'.b.a.size
  hsize : (s'.b.head.size : Int) = n + 1
  free : s'.pfree = s.pfree + (pivotSet n s.b.cols.get s.b.a.get P).card
  tag : 1 ≤ s'.tagMark
  fits : s'.tagMark + n + 1 < 2 ^ 31 ∧ s'.maxDeg ≤ n ∧ s'.garbage = s.garbage
  marks : ∀ r, AliveRow m s'.b.rows.get r → (s'.b.rows.get r).mark < s'.tagMark
  maxDeg : s.maxDeg ≤ s'.maxDeg ∧ t ≤ s'.maxDeg
  lists : DegLists n (AliveCol n s'.b.cols.get) s'.b.head.get (fun c => (s'.b.cols.get c).score) (fun c => (s'.b.cols.get c).prev)
    (fun c => (s'.b.cols.get c).next)
  min0 : 0 ≤ s'.minScore
  minLe : ∀ c, AliveCol n s'.b.cols.get c → s'.minScore ≤ (s'.b.cols.get c).score

theorem pivoted_of {m n n2 nnz aLen maxMark : Int} {aggressive : Bool} {s0 s : OrderState} {P : Int} (hmm : maxMark + n < 2 ^ 31) (hc : choosePivot m n aLen maxMark s0 = .ok (s, P))
    (h : Chosen m n n2 nnz aLen s P) :
    ∃ pivotRow degree' s', orderPivot m n aLen maxMark aggressive s0 = .ok s' ∧
      Pivoted n n2 s.tagMark s.pfree s.k (differenced aggressive n s.tagMark s.b.rows.get s.b.cols.get s.b.a.get P) s.b.cols.get s.b.a.get P pivotRow
        s'.b.rows.get s'.b.cols.get s'.b.a.get s'.k degree' ∧
      Rest m n aLen s P (weight s.b.cols.get (pivotSet n s.b.cols.get s.b.a.get P)) s' := by
  obtain ⟨⟨hfa, hg0, hgk, hmdn⟩, hrs, hcs, has, hhs, hroom, ⟨top, hp, htn⟩, hw, htag, hdegs, hmd, hP, hlists, hmin0, hminLe, ⟨root, hg⟩, hk0, hn2, hplaced, htotal, hscore⟩ := h
  set C := s.b.cols.get with hC
  set A := s.b.a.get with hA
  set R := s.b.rows.get with hR
  set Q := pivotSet n C A P with hQdef
  set R2 := differenced aggressive n s.tagMark R C A P with hR2
  have hP0 := hP.1
  have hPn := hP.2.1
  have ht0 := hp.top0
  have htf := hp.topFree
  have hm0 := hp.rows0
  have hn0 := hp.cols0
  have hPQ : P ∉ Q := fun q => (mem_pivotSet.1 q).2.1 rfl
  have hQal : ∀ d ∈ Q, AliveCol n C d := fun d hd => (mem_pivotSet.1 hd).1
  have hQP : ∀ d ∈ Q, d ≠ P := fun d hd => (mem_pivotSet.1 hd).2.1
  have hcardQ : (0 : Int) ≤ Q.card := by omega
  unfold orderPivot
  rw [hc, ok_bind]
  simp only
  have hone := hw.one hP
  obtain ⟨hsm, hsn, hsf⟩ := hp.small
  have hwQn := hw.le hQal
  have hts := hw.tagSmall
  have hroom' : s.pfree + (Q.card : Int) < 2 ^ 31 := by omega
  rw [Mem.read_of hP0 (by omega), ok_bind]
  simp only [← hC]
  rw [i32_of (by omega) (by omega), ok_bind, Mem.write_of _ hP0 (by omega), ok_bind]
  -- the pivot row
  obtain ⟨t, e1, t1⟩ := pivotRow_of hp hP hw.thick s.b.rows rfl hrs (csize := s.b.cols.size) (asize := s.b.a.size) hcs (by show s.pfree + (Q.card : Int) ≤ _; omega) hroom' hw.total
    ⟨s.b.cols.put P { C P with thickness := -(C P).thickness }, s.b.a, s.pfree, 0⟩
    ⟨Finset.empty_subset _, rfl, rfl, by simp, by simp, by simpa using Holds.empty _ _, fun _ _ => rfl, fun d => by
      simp only [Finset.notMem_empty, false_or]
      rcases eq_or_ne d P with rfl | hne
      · rw [Mem.put_get_self, if_pos rfl]
      · rw [Mem.put_get_ne _ _ hne, if_neg hne]⟩
  rw [e1, ok_bind]
  rw [← hQdef] at t1
  obtain ⟨_, tcs, tas, tfree, tdeg, trow, tkeep, tcols⟩ := t1
  rw [Mem.modify_of _ hP0 (by omega), ok_bind]
  -- the rows of the pivot die
  obtain ⟨rows1, e2, r1s, r1⟩ := killRows_of hp hP s.b.rows rfl hrs t.a (by omega) tkeep
  rw [e2, ok_bind]
  have hR1 : rows1.get = killed R C A P := by
    funext r
    rw [r1]
    unfold killed
    congr
  have hlen : t.pfree - s.pfree = Q.card := by omega
  rw [hlen, i32_of (by omega) (by omega), ok_bind]
  have hread : ∃ pivotRow, (if (Q.card : Int) > 0 then t.a.read (C P).start else pure (-1)) = .ok pivotRow ∧ (Q ≠ ∅ → InCol C A P pivotRow) := by
    by_cases hq : (Q.card : Int) > 0
    · rw [if_pos hq]
      obtain ⟨d, hd⟩ := Finset.card_pos.1 (by omega : 0 < Q.card)
      obtain ⟨_, _, r, ⟨i, i1, i2, i3⟩, _⟩ := mem_pivotSet.1 hd
      have hl := hp.colLen P hP
      have := hP.2.2
      rw [Mem.read_of (by omega) (by omega)]
      refine ⟨_, rfl, fun _ => ⟨(C P).start, le_refl _, by omega, ?_⟩⟩
      rw [tkeep _ (by omega)]
    · rw [if_neg hq]
      refine ⟨_, rfl, fun q => ?_⟩
      have := Finset.card_pos.2 (Finset.nonempty_iff_ne_empty.2 q)
      omega
  obtain ⟨pivotRow, e3, hpr⟩ := hread
  rw [bind_ite, e3, ok_bind]
  have hcols1 : ∀ d, (t.cols.put P { t.cols.get P with thickness := (C P).thickness }).get d = { C d with
      thickness := if d ∈ Q ∧ d ∉ (∅ : Finset Int) then -(C d).thickness else (C d).thickness } := fun d => by
    simp only [Finset.notMem_empty, not_false_iff, and_true]
    rcases eq_or_ne d P with rfl | hne
    · rw [Mem.put_get_self, if_neg hPQ, tcols, if_pos (Or.inr rfl)]
    · rw [Mem.put_get_ne _ _ hne, tcols]
      by_cases hd : d ∈ Q
      · rw [if_pos (Or.inl hd), if_pos hd]
      · rw [if_neg (by simp only [hd, hne, or_self, not_false_iff]), if_neg hd]
  have hp1 : ∀ d, ((t.cols.put P { t.cols.get P with thickness := (C P).thickness }).get d).prev = (C d).prev := fun d => by rw [hcols1]
  have hn1 : ∀ d, ((t.cols.put P { t.cols.get P with thickness := (C P).thickness }).get d).next = (C d).next := fun d => by rw [hcols1]
  -- the set differences
  obtain ⟨b, e4, b1, b2, b3, b4, b5, b6, b7⟩ := differences_of hp aggressive htag hw (R1 := killed R C A P) (fun r => by
      unfold killed
      by_cases hr : InCol C A P r
      · rw [if_pos hr]; exact ⟨rfl, Or.inr (by simp)⟩
      · rw [if_neg hr]; exact ⟨rfl, Or.inl rfl⟩)
    (L := fun c => AliveCol n C c ∧ c ≠ P) (Q := Q) (fun d hd => ⟨hQal d hd, hQal d hd, hQP d hd⟩) (rsize := rows1.size) (csize := s.b.cols.size)
    (hsize := s.b.head.size) (by omega) hcs (by omega) t.a (len := Q.card) (by omega) tkeep trow
    ⟨rows1, t.cols.put P { t.cols.get P with thickness := (C P).thickness }, t.a, s.b.head⟩
    ⟨rfl, by simp only [Mem.put_size]; exact tcs, rfl, rfl, fun r => by
      simp only [hR1]
      unfold markAfter touching
      simp, fun d => by
      simp only
      rw [hp1, hn1, hcols1], by
      refine hlists.congr (fun c => by simp) (fun _ _ _ => rfl) (fun _ _ => rfl) (fun c _ => hp1 c) (fun c _ => hn1 c)⟩
  rw [e4, ok_bind]
  have hlinks : SameLinks C b.cols.get := ⟨fun c => by
    have := b6 c
    rw [if_neg (by tauto)] at this
    exact this⟩
  have hbR : b.rows.get = R2 := by
    funext r
    rw [b5, hR2]
    unfold differenced
    simp only
    unfold killed
    by_cases hr : InCol C A P r
    · rw [if_pos hr]
    · rw [if_neg hr]
  set C2 := b.cols.get with hC2
  -- the columns of the pivot row lose their dead rows
  have hlist2 : DegLists n (fun d => (AliveCol n C d ∧ d ≠ P) ∧ d ∉ Q) b.head.get (fun c => (C2 c).score) (fun c => (C2 c).prev) (fun c => (C2 c).next) :=
    b7.congr (fun _ => Iff.rfl) (fun _ _ _ => rfl) (fun c _ => hlinks.score c) (fun _ _ => rfl) (fun _ _ => rfl)
  have hbud : s.k + weight C Q ≤ n2 := by
    rw [← htotal]
    have : weight C Q ≤ weight C ((alive n C).erase P) := weight_mono (fun d hd => Finset.mem_erase.2 ⟨hQP d hd, mem_alive.2 (hQal d hd)⟩) (fun d hd => by
      have := hw.thick d (mem_alive.1 (Finset.mem_erase.1 hd).2)
      omega)
    omega
  obtain ⟨hst, e5, h5⟩ := hashColumns_of (hlinks.pattern hp) (rows := b.rows) (by omega) (k0 := s.k) (deg0 := t.degree) (n2 := n2) (tag := s.tagMark) (P := P) hlist2
    (csize := s.b.cols.size) (hsize := s.b.head.size) hcs (by omega) (Q := Q) (fun d hd => by
      rw [hlinks.aliveCol, hlinks.thickness]
      have := hw.thick d (hQal d hd)
      exact ⟨hQal d hd, fun q => q.2 hd, hQP d hd, by omega⟩) hk0 (by rw [hlinks.weight]; exact hbud) (fun d hd r hr => by
      rw [hbR, hlinks.keptRows] at hr
      rw [hbR]
      obtain ⟨q1, q2⟩ := mem_keptRows.1 hr
      have : (R2 r).mark - s.tagMark = _ := diff_value hw hp hd q1 q2
      have := outside_nonneg (P := P) hw (r := r)
      have := (hw.le (S := outside n C A P r) fun c hc => (mem_colsOf.1 (Finset.mem_filter.1 hc).1).1).2
      omega) hn2 (by rw [hlinks.weight]; exact ⟨le_of_eq tdeg.symm, le_trans (le_of_eq tdeg) hwQn.2⟩) t.a (len := Q.card) (by omega) tkeep trow ⟨b.cols, b.a, b.head, s.k, t.degree⟩
    ⟨b2, by simp only [b4], b3, fun i _ => by simp only [b4], fun d hd => absurd hd (Finset.notMem_empty _), by simp [weight], by simp [weight],
      fun c _ => rfl, fun d hd => absurd hd (Finset.notMem_empty _), fun d hd => absurd hd (Finset.notMem_empty _),
      ⟨fun _ => [], ⟨fun i i0 i1 => by
          simp only [firstOf]
          split
          · omega
          · rfl, fun i i0 i1 hne => by
          rcases b7.headOf i i0 i1 with q | ⟨_, _, q⟩
          · exact absurd q hne
          · exact q, fun _ => trivial, fun _ _ q => absurd q (by simp), fun _ => List.nodup_nil, fun _ _ q => absurd q (by simp),
          fun _ _ q => absurd q (by simp)⟩, fun d hd => absurd hd (Finset.notMem_empty _)⟩,
      fun _ _ => rfl, fun _ _ _ => rfl, hplaced.congr (fun c hc' => by rw [← hlinks.start c]; exact hc') (fun c _ => ⟨hlinks.score c, hlinks.thickness c⟩)⟩
  rw [e5, ok_bind]
  rw [hbR] at h5
  obtain ⟨u1, u2, u3, u4, u5, u6, u7, u8, u9, u10, ⟨bucket, u11, u12⟩, u13, u14, u15⟩ := h5
  simp only [hlinks.keptRows, hlinks.keptScore, hlinks.weight, hlinks.start, hlinks.thickness] at u4 u5 u6 u7 u9 u10 u11 u12
  set C3 := hst.cols.get with hC3
  have hother3 : ∀ c, c ∉ Q → C3 c = { C c with prev := (C3 c).prev, next := (C3 c).next } := fun c hc' => by
    rw [u8 c hc', hlinks.eq c]
  have hkept3 : ∀ c ∈ Q, keptRows R2 C A c ≠ ∅ → (C3 c).start = (C c).start ∧ (C3 c).thickness = (C c).thickness ∧ (C3 c).length = (keptRows R2 C A c).card ∧
      (C3 c).score = keptScore n s.tagMark R2 C A c := fun c hc' hK => by
    rw [u10 c hc' hK]
    exact ⟨rfl, rfl, rfl, rfl⟩
  have hcardlt : ∀ c ∈ Q, ((keptRows R2 C A c).card : Int) < (C c).length := fun c hc' => kept_lt hp hc'
  have hin3 : ∀ c ∈ Q, keptRows R2 C A c ≠ ∅ → ∀ r, InCol C3 hst.a.get c r ↔ r ∈ keptRows R2 C A c := fun c hc' hK r => by
    obtain ⟨q1, _, q3, _⟩ := hkept3 c hc' hK
    unfold InCol
    rw [q1, q3]
    exact (u5 c hc').2.2 r
  have hthick3 : ∀ c, (C3 c).thickness = (C c).thickness := fun c => by
    by_cases hc' : c ∈ Q
    · by_cases hK : keptRows R2 C A c = ∅
      · exact (u9 c hc' hK).2
      · exact (hkept3 c hc' hK).2.1
    · rw [hother3 c hc']
  have hg3 : Groups n C3 root := hg.congr (fun c c0 cn => by
      by_cases hc' : c ∈ Q
      · by_cases hK : keptRows R2 C A c = ∅
        · exact Or.inr (Or.inl (u9 c hc' hK).1)
        · rw [(hkept3 c hc' hK).1]; exact hg.kind c c0 cn
      · rw [hother3 c hc']; exact hg.kind c c0 cn) (fun c c0 cn => by
      by_cases hc' : c ∈ Q
      · have := (hQal c hc').2.2
        by_cases hK : keptRows R2 C A c = ∅
        · rw [(u9 c hc' hK).1]; omega
        · rw [(hkept3 c hc' hK).1]
      · rw [hother3 c hc']) (fun c _ _ => hthick3 c) (fun c c0 cn hs => by
      have hc' : c ∉ Q := fun q => by
        have := (hQal c q).2.2
        omega
      rw [hother3 c hc'])
  have htrow3 : Holds hst.a.get s.pfree Q.card Q := trow.congr (fun i i1 i2 => u4 i (fun d hd => by
    right
    have := hp.colLen d (hQal d hd)
    have := hcardlt d hd
    omega))
  have hasz : (hst.a.size : Int) = s.b.a.size := by rw [u2, tas]
  -- equal columns are absorbed
  obtain ⟨⟨cols4, head4⟩, e6, h6⟩ := superColumns_of (M := fun c => c ∈ Q ∧ keptRows R2 C A c ≠ ∅) (C := C3) (L := fun d => (AliveCol n C d ∧ d ≠ P) ∧ d ∉ Q) hst.a hsn
    (fun c hc' => by
      obtain ⟨q1, _, q3, _⟩ := hkept3 c hc'.1 hc'.2
      have hal := hQal c hc'.1
      have := hp.colLen c hal
      have := hcardlt c hc'.1
      exact ⟨hal.1, hal.2.1, by rw [q1]; exact hal.2.2, by rw [q3]; omega, by rw [q1, q3]; omega⟩) hn0 (hashOf := fun c => (C3 c).prev) hlist2
    (fun c hc' q => hc'.2 q.1) (fun d hd => by
      obtain ⟨i, hi⟩ := u12 d hd.1 hd.2
      have := u11.hash i d hi
      rw [u11.prev i d hi]
      exact this) (csize := s.b.cols.size) (hsize := s.b.head.size) hcs (by omega) (Q := Q) (fun d hd => by
      have hal := hQal d hd
      refine ⟨hal.1, hal.2.1, ?_⟩
      by_cases hK : keptRows R2 C A d = ∅
      · right; rw [(u9 d hd hK).1]; omega
      · exact Or.inl ⟨hd, hK⟩) (pfree := s.pfree) (len := Q.card) (by omega) (by omega) htrow3 (hst.cols, hst.head)
    ⟨u1, u3, Merged.refl hg3 (fun c hc' => by rw [(hkept3 c hc'.1 hc'.2).1]; exact (hQal c hc'.1).2.2),
      ⟨bucket, ⟨u11.head, u11.headPrev, u11.linked, u11.prev, u11.nodup, u11.hash, fun i c hi => by
        obtain ⟨q1, q2⟩ := u11.member i c hi
        refine ⟨⟨q1, ?_⟩, q2⟩
        show 0 ≤ (C3 c).start
        rw [(hkept3 c q1.1 q1.2).1]
        exact (hQal c q1.1).2.2⟩, fun d hd => by
        obtain ⟨i, hi⟩ := u12 d hd.1 hd.2
        left
        rw [u11.prev i d hi]
        exact hi, fun d hd => absurd hd (Finset.notMem_empty _)⟩, fun _ _ => rfl, fun _ _ => rfl, fun _ _ _ => rfl⟩
  rw [e6, ok_bind]
  have hlist4 := h6.lists hlist2 (fun c hc' q => hc'.2 q.1) (fun c hc' => hc'.1) u13 u14 (fun c hc' => by
    rw [hother3 c hc'.2]; exact (hlinks.score c).symm)
  obtain ⟨v1, v2, hm4, _, _, _, _⟩ := h6
  simp only at v1 v2 hm4 hlist4 ⊢
  rw [Mem.modify_of _ hP0 (by omega), ok_bind]
  -- the marks
  set maxDeg' := (if s.maxDeg > t.degree then s.maxDeg else t.degree) with hmaxDeg'
  have hmaxDeg : s.maxDeg ≤ maxDeg' ∧ t.degree ≤ maxDeg' := by
    rw [hmaxDeg']
    split <;> omega
  have hmaxDegn : maxDeg' ≤ n := by
    have : t.degree = weight C Q := tdeg
    rw [hmaxDeg']
    split <;> omega
  rw [i32_of (by omega) (by omega), ok_bind, i32_of (by omega) (by omega), ok_bind]
  obtain ⟨rows5, tag', e7, w1, w2, w3, w4, w5⟩ := clearMark_of hm0 b.rows (by omega) (s.tagMark + maxDeg' + 1) maxMark (fun _ r hr => by
    rw [hbR] at hr ⊢
    exact diff_marks hw (fun r hr => le_trans (hdegs r hr) hmaxDeg.1) htag (by omega) hr)
  rw [e7, ok_bind]
  simp only
  -- the new scores
  set D := (cols4.put P { cols4.get P with start := -1 }).get with hD
  have hDP : (D P).start = -1 := by rw [hD, Mem.put_get_self]
  have hDo : ∀ c, c ≠ P → D c = cols4.get c := fun c hne => by rw [hD, Mem.put_get_ne _ _ hne]
  have hDpart : D P = { C P with start := -1, prev := (D P).prev, next := (D P).next } := by
    have : cols4.get P = { C P with prev := (cols4.get P).prev, next := (cols4.get P).next } := by
      rw [hm4.other P (fun q => hPQ q.1), hother3 P hPQ]
    rw [hD, Mem.put_get_self, this]
  have hDother : ∀ c, c ∉ Q → c ≠ P → D c = { C c with prev := (D c).prev, next := (D c).next } := fun c hc' hne => by
    rw [hDo c hne, hm4.other c (fun q => hc' q.1), hother3 c hc']
  have hDdead : ∀ c ∈ Q, keptRows R2 C A c = ∅ → (D c).start = -1 := fun c hc' hK => by
    rw [hDo c (hQP c hc'), hm4.other c (fun q => q.2 hK)]
    exact (u9 c hc' hK).1
  have hDkept : ∀ c ∈ Q, 0 ≤ (D c).start → keptRows R2 C A c ≠ ∅ ∧ (D c).start = (C c).start ∧ (D c).length = (keptRows R2 C A c).card ∧
      (D c).score = keptScore n s.tagMark R2 C A c := fun c hc' h0 => by
    have hK : keptRows R2 C A c ≠ ∅ := fun q => by
      have := hDdead c hc' q
      omega
    rw [hDo c (hQP c hc')] at h0 ⊢
    obtain ⟨k1, k2, k3⟩ := hm4.kept c ⟨hc', hK⟩ h0
    obtain ⟨q1, _, q3, q4⟩ := hkept3 c hc' hK
    exact ⟨hK, by rw [k1, q1], by rw [k2, q3], by rw [k3, q4]⟩
  have hsum := fun (X : Int → Prop) hX => merged_sum (X := X) (D := D) hPQ hQal (fun c hc' => by rw [hother3 c hc']; exact ⟨rfl, rfl⟩) (fun c hc' hK => (u9 c hc' hK).1)
    (fun c hc' hK => ⟨(hkept3 c hc' hK).1, hthick3 c⟩) hin3 hm4 hDo hDP hX
  obtain ⟨root4, hg4⟩ := hm4.groups
  have hgD : Groups n D root4 := hg4.congr (fun c c0 cn => by
      rcases eq_or_ne c P with rfl | hne
      · exact Or.inr (Or.inl hDP)
      · rw [hDo c hne]; exact hg4.kind c c0 cn) (fun c c0 cn => by
      rcases eq_or_ne c P with rfl | hne
      · have : (cols4.get c).start = (C c).start := by rw [hm4.other c (fun q => hPQ q.1), hother3 c hPQ]
        rw [hDP, this]
        have := hP.2.2
        omega
      · rw [hDo c hne]) (fun c c0 cn => by
      rcases eq_or_ne c P with rfl | hne
      · rw [hD, Mem.put_get_self]
      · rw [hDo c hne]) (fun c c0 cn hs => by
      rcases eq_or_ne c P with rfl | hne
      · rw [hD, Mem.put_get_self]
      · rw [hDo c hne])
  have hposD : ∀ c, AliveCol n D c → 1 ≤ (D c).thickness := fun c hc' => hgD.pos hc'.1 hc'.2.1 (by have := hc'.2.2; omega)
  have hdeg : hst.degree = weight C (Q.filter (fun d => keptRows R2 C A d ≠ ∅)) := by
    have h1 : weight C Q = weight C (Q.filter (fun d => keptRows R2 C A d = ∅)) + weight C (Q.filter (fun d => keptRows R2 C A d ≠ ∅)) :=
      (Finset.sum_filter_add_sum_filter_not _ _ _).symm
    have h2 : t.degree = weight C Q := tdeg
    omega
  -- the thickness of a column of the pivot row
  have hwQ : ∑ c ∈ alive n D, (@ite Int (c ∈ Q) (propDecidable _) (D c).thickness 0) = hst.degree := by
    rw [hsum (fun c => c ∈ Q) (fun c hc' d hd _ => by simp only [hc', hd]), ← weight_filter (inst := fun c => propDecidable _), hdeg]
    unfold weight
    refine Finset.sum_congr ?_ (fun _ _ => rfl)
    ext c
    simp only [Finset.mem_filter, mem_alive]
    constructor
    · rintro ⟨⟨_, _, q⟩, hQ'⟩
      exact ⟨hQ', q hQ'⟩
    · rintro ⟨hQ', q⟩
      exact ⟨⟨hQal c hQ', hQP c hQ', fun _ => q⟩, hQ'⟩
  have htot : hst.k + weight D (alive n D) = n2 := by
    have hs1 := hsum (fun _ => True) (fun _ _ _ _ _ => Iff.rfl)
    simp only [if_true] at hs1
    have hs2 : weight C ((alive n C).erase P) = weight C ((alive n C).filter (fun c => c ≠ P ∧ (c ∈ Q → keptRows R2 C A c ≠ ∅))) +
        weight C (Q.filter (fun d => keptRows R2 C A d = ∅)) := by
      unfold weight
      rw [← Finset.sum_union]
      · refine Finset.sum_congr ?_ (fun _ _ => rfl)
        ext c
        simp only [Finset.mem_erase, Finset.mem_union, Finset.mem_filter, mem_alive]
        constructor
        · rintro ⟨q1, q2⟩
          by_cases hq : c ∈ Q ∧ keptRows R2 C A c = ∅
          · exact Or.inr hq
          · exact Or.inl ⟨q2, q1, fun a b => hq ⟨a, b⟩⟩
        · rintro (⟨q2, q1, _⟩ | ⟨q1, _⟩)
          · exact ⟨q1, q2⟩
          · exact ⟨hQP c q1, hQal c q1⟩
      · rw [Finset.disjoint_left]
        intro c q1 q2
        simp only [Finset.mem_filter] at q1 q2
        exact q1.2.2 q2.1 q2.2
    have hs3 : weight D (alive n D) = weight C ((alive n C).filter (fun c => c ≠ P ∧ (c ∈ Q → keptRows R2 C A c ≠ ∅))) := hs1
    rw [u6, ← htotal, hs2, hs3]
    ring
  have hk0' : s.k ≤ hst.k := by
    rw [u6]
    have : 0 ≤ weight C (Q.filter (fun d => keptRows R2 C A d = ∅)) := Finset.sum_nonneg fun d hd => by
      have := hw.thick d (hQal d (Finset.mem_filter.1 hd).1)
      omega
    omega
  obtain ⟨f, e8, f1, f2, f3, f4, f5, f6, f7, f8, f9, f10, f11, f12, f13, f14⟩ := finishColumns_of (n := n) (k := hst.k) (degree := hst.degree) (pivotRow := pivotRow) (pfree := s.pfree)
    (top := top) (L := fun d => (AliveCol n C d ∧ d ≠ P) ∧ d ∉ Q) (D := D) hst.a (m0 := s.minScore) (csize := s.b.cols.size) (hsize := s.b.head.size) (Q := Q)
    hcs (by omega) htf (by omega) (fun d hd => ⟨(hQal d hd).1, (hQal d hd).2.1, fun q => q.2 hd⟩) (fun d hd h0 => by
      obtain ⟨_, q1, q2, _⟩ := hDkept d hd h0
      have := hp.colLen d (hQal d hd)
      have := hcardlt d hd
      rw [q1, q2]
      omega) (fun d hd e he h0 h1 hne => by
      obtain ⟨_, q1, q2, _⟩ := hDkept d hd h0
      obtain ⟨_, p1, p2, _⟩ := hDkept e he h1
      have := hcardlt d hd
      have := hcardlt e he
      have := hp.colDisj (hQal d hd) (hQal e he) hne
      rw [q1, q2, p1, p2]
      omega) (fun d hd h0 => by
      obtain ⟨_, _, _, q4⟩ := hDkept d hd h0
      have hal : AliveCol n D d := ⟨(hQal d hd).1, (hQal d hd).2.1, h0⟩
      refine ⟨?_, ?_, ?_, hposD d hal⟩
      · rw [q4]
        unfold keptScore
        refine le_min hn0 (Finset.sum_nonneg fun r hr => ?_)
        obtain ⟨r1', r2'⟩ := mem_keptRows.1 hr
        have : (R2 r).mark - s.tagMark = _ := diff_value hw hp hd r1' r2'
        have := outside_nonneg (P := P) hw (r := r)
        omega
      · rw [← hwQ]
        have := Finset.single_le_sum (f := fun c => @ite Int (c ∈ Q) (propDecidable _) (D c).thickness 0) (fun c hc' => by
          have := hposD c (mem_alive.1 hc')
          show 0 ≤ @ite Int (c ∈ Q) (propDecidable _) (D c).thickness 0
          split <;> omega) (mem_alive.2 hal)
        simp only [hd, if_true] at this
        exact this
      · have : (D d).thickness ≤ weight D (alive n D) := Finset.single_le_sum (f := fun c => (D c).thickness) (fun c hc' => by
          have := hposD c (mem_alive.1 hc')
          omega) (mem_alive.2 hal)
        omega) ⟨hsn, by omega, by
        rw [hdeg]
        exact (hw.le fun d hd => hQal d (Finset.mem_filter.1 hd).1).2⟩ (fun d hd h0 => by
        rw [(hDkept d hd h0).2.2.2]
        exact min_le_left _ _)
    (len := Q.card) (by omega) (by omega) htrow3 ⟨cols4.put P { cols4.get P with start := -1 }, hst.a, head4, s.pfree, s.minScore⟩
    ⟨by simp only [Mem.put_size]; exact v1, rfl, v2, by simp, by simpa using Holds.empty _ _, fun _ _ => rfl, fun _ _ _ => rfl, fun d hd => absurd hd (Finset.notMem_empty _),
      fun c _ => rfl, fun d hd => absurd hd (Finset.notMem_empty _), hlist4.congr (fun c => by simp) (fun _ _ _ => rfl) (fun c hc' => by
        show (D c).score = _
        rw [hDo c hc'.1.2]) (fun c hc' => by
        show (D c).prev = _
        rw [hDo c hc'.1.2]) (fun c hc' => by
        show (D c).next = _
        rw [hDo c hc'.1.2]), hmin0, le_refl _, fun d hd => absurd hd (Finset.notMem_empty _)⟩
  rw [e8, ok_bind]
  have hdpos : 0 < hst.degree → InCol C A P pivotRow := fun h0 => hpr fun q => by
    rw [hdeg, q] at h0
    simp [weight] at h0
  have hrows6 : ∃ rows6, (if hst.degree > 0 then i32 (f.newRp - s.pfree) >>= fun length => rows5.modify pivotRow (fun _ => ⟨s.pfree, length, hst.degree, 0⟩) else pure rows5) = .ok rows6 ∧
      rows6.size = rows5.size ∧ (∀ r, r ≠ pivotRow ∨ hst.degree ≤ 0 → rows6.get r = rows5.get r) ∧
      (0 < hst.degree → rows6.get pivotRow = ⟨s.pfree, f.newRp - s.pfree, hst.degree, 0⟩) := by
    by_cases h0 : hst.degree > 0
    · have hal := hp.colRow P hP _ (hdpos h0)
      have hcf := Finset.card_filter_le Q (fun d => 0 ≤ (D d).start)
      rw [if_pos h0, i32_of (by omega) (by omega), ok_bind, Mem.modify_of _ hal.1 (by have := hal.2.1; omega)]
      refine ⟨_, rfl, rfl, fun r hr => ?_, fun _ => by rw [Mem.put_get_self]⟩
      rw [Mem.put_get_ne _ _ (hr.resolve_right (by omega))]
    · rw [if_neg h0]
      exact ⟨_, rfl, rfl, fun _ _ => rfl, fun q => absurd q h0⟩
  obtain ⟨rows6, e9, x1, x2, x3⟩ := hrows6
  rw [bind_ite₂, e9, ok_bind]
  refine ⟨pivotRow, hst.degree, _, rfl, ?_, ?_⟩
  · -- the state of the columns
    have hCstart : ∀ c, (f.cols.get c).start = (D c).start ∧ (f.cols.get c).thickness = (D c).thickness := fun c => by
      by_cases hc' : c ∉ Q ∨ (D c).start < 0
      · rw [f9 c hc']; exact ⟨rfl, rfl⟩
      · simp only [not_or, not_not, not_lt] at hc'
        rw [f10 c hc'.1 hc'.2]; exact ⟨rfl, rfl⟩
    have hQfil : Q.filter (fun d => 0 ≤ (f.cols.get d).start) = Q.filter (fun d => 0 ≤ (D d).start) :=
      Finset.filter_congr fun d _ => by rw [(hCstart d).1]
    have halive : alive n f.cols.get = alive n D := by
      ext c
      simp only [mem_alive, AliveCol, (hCstart c).1]
    have hcellcol : ∀ c ∈ Q, 0 ≤ (D c).start → ∀ i, (C c).start ≤ i → i < (C c).start + (keptRows R2 C A c).card → f.a.get i = hst.a.get i := fun c hc' h0 i i1 i2 => by
      have hl := hp.colLen c (hQal c hc')
      have hlt := hcardlt c hc'
      refine f7 i (by omega) (fun d hd h0' => ?_)
      obtain ⟨_, q1, q2, _⟩ := hDkept d hd h0'
      rw [q1, q2]
      rcases eq_or_ne d c with rfl | hne
      · omega
      · have := hp.colDisj (hQal d hd) (hQal c hc') hne
        have := hcardlt d hd
        have := hp.colLen d (hQal d hd)
        omega
    refine ⟨u6, hdeg, fun c hc' hne => ?_, ?_, by simp only; rw [f9 P (Or.inl hPQ), hDpart]; exact ⟨rfl, rfl⟩, fun c hc' hK => ?_, fun c hc' hK h0 => ?_, ⟨root4, ?_⟩, ?_, fun X hX => ?_, fun c hc' hK h0 => ?_, fun i hi hfar => ?_,
      fun i i0 i1 => ?_, ?_, fun r hr => ?_, fun h0 => ⟨?_, hdpos h0⟩⟩
    · simp only
      rw [f9 c (Or.inl hc'), hDother c hc' hne]
    · simp only
      rw [(hCstart P).1, hDP]
    · simp only
      rw [(hCstart c).1]
      exact hDdead c hc' hK
    · simp only at h0 ⊢
      rw [(hCstart c).1] at h0
      obtain ⟨_, q1, q2, q4⟩ := hDkept c hc' h0
      have hfc := f10 c hc' h0
      have hth := (hCstart c).2
      refine ⟨by rw [(hCstart c).1, q1], by rw [hfc]; simp only; rw [q2], ?_⟩
      rw [hth]
      have : (f.cols.get c).score = newScore n hst.k hst.degree D c := by rw [hfc]
      rw [this]
      unfold newScore
      rw [q4]
    · refine hgD.congr (fun c c0 cn => ?_) (fun c _ _ => ?_) (fun c _ _ => ?_) (fun c _ _ hs => ?_)
      · simp only
        rw [(hCstart c).1]; exact hgD.kind c c0 cn
      · simp only
        rw [(hCstart c).1]
      · exact (hCstart c).2
      · simp only
        rw [f9 c (Or.inr (by omega))]
    · refine u15.congr (fun c hc' => ?_) (fun c hc' => ?_)
      · obtain ⟨c0, cn, hs⟩ := hc'
        simp only at hs
        rw [(hCstart c).1] at hs
        refine ⟨c0, cn, ?_⟩
        rcases eq_or_ne c P with hcP | hne
        · exact Or.inr hcP
        · left
          by_cases hQ' : c ∈ Q
          · by_cases hK : keptRows R2 C A c = ∅
            · exact (u9 c hQ' hK).1
            · rw [hDo c hne] at hs
              have := hm4.absorbed c ⟨hQ', hK⟩ (by omega)
              omega
          · have := hDother c hQ' hne
            rw [this] at hs
            show (C3 c).start = -1
            rw [hother3 c hQ']
            exact hs
      · obtain ⟨c0, cn, hs⟩ := hc'
        simp only at hs ⊢
        rw [(hCstart c).1] at hs
        have hsc : (f.cols.get c).score = (D c).score := by rw [f9 c (Or.inr (by omega))]
        rw [hsc, (hCstart c).2]
        rcases eq_or_ne c P with rfl | hne
        · rw [hDpart]
          show _ = (C3 c).score ∧ _ = (C3 c).thickness
          rw [hother3 c hPQ]
          exact ⟨rfl, rfl⟩
        · by_cases hQ' : c ∈ Q
          · by_cases hK : keptRows R2 C A c = ∅
            · rw [hDo c hne, hm4.other c (fun q => q.2 hK)]
              exact ⟨rfl, rfl⟩
            · rw [hDo c hne] at hs
              have := hm4.absorbed c ⟨hQ', hK⟩ (by omega)
              omega
          · rw [hDother c hQ' hne]
            show _ = (C3 c).score ∧ _ = (C3 c).thickness
            rw [hother3 c hQ']
            exact ⟨rfl, rfl⟩
    · simp only
      rw [halive, ← hsum X hX]
      refine Finset.sum_congr rfl fun c _ => ?_
      rw [(hCstart c).2]
    · simp only at h0 ⊢
      rw [(hCstart c).1] at h0
      obtain ⟨_, q1, q2, q4⟩ := hDkept c hc' h0
      refine (u5 c hc').push (fun q => ?_) (hcellcol c hc' h0) ?_
      · have := (diff_alive (mem_keptRows.1 q).2).1
        exact this (hpr (Finset.nonempty_iff_ne_empty.1 ⟨c, hc'⟩))
      · have := f8 c hc' h0
        rw [q1, q2] at this
        exact this
    · show f.a.get i = A i
      rw [f7 i hi (fun d hd h0 => by
        obtain ⟨_, q1, q2, _⟩ := hDkept d hd h0
        rw [q1, q2]
        have := hfar d hd
        omega), u4 i (fun d hd => by
        have := hfar d hd
        omega), tkeep i hi]
    · show 0 ≤ f.a.get i
      -- the cells before the last pass
      have h3 : 0 ≤ hst.a.get i := by
        by_cases hi : i < s.pfree
        · by_cases hfar : ∀ d ∈ Q, i < (C d).start ∨ (C d).start + (keptRows R2 C A d).card ≤ i
          · rw [u4 i hfar, tkeep i hi]
            exact hp.cells i i0 hi
          · simp only [not_forall, not_or, not_lt, not_le] at hfar
            obtain ⟨d, hd, q1, q2⟩ := hfar
            have hmem := (u5 d hd).mem q1 q2
            exact (hp.colRow d (hQal d hd) _ (mem_keptRows.1 hmem).1).1
        · exact (hQal _ (htrow3.mem (by omega) i1)).1
      by_cases hi : i < s.pfree
      · by_cases hend : ∃ d ∈ Q, 0 ≤ (D d).start ∧ i = (D d).start + (D d).length
        · obtain ⟨d, hd, h0, rfl⟩ := hend
          rw [f8 d hd h0]
          exact (hp.colRow P hP _ (hpr (Finset.nonempty_iff_ne_empty.1 ⟨d, hd⟩))).1
        · rw [f7 i hi (fun d hd h0 q => hend ⟨d, hd, h0, q⟩)]
          exact h3
      · by_cases hi2 : i < f.newRp
        · rw [f4] at hi2
          exact (hQal _ (Finset.mem_filter.1 (f5.mem (by omega) hi2)).1).1
        · rw [f6 i (by omega)]
          exact h3
    · simp only
      rw [hQfil]
      exact f5
    · simp only
      rw [x2 r hr, ← hbR]
      exact w3 r
    · simp only
      rw [x3 h0, hQfil, f4]
      congr 1
      omega
  · refine ⟨by simp only; omega, by simp only; omega, by simp only; omega, by simp only; omega, by simp only; omega, w2, ⟨by simp only; omega, hmaxDegn, rfl⟩, fun r hr => ?_, ?_, ?_, f12, fun c hc' => ?_⟩
    · simp only at hr ⊢
      by_cases h0 : r ≠ pivotRow ∨ hst.degree ≤ 0
      · have : AliveRow m rows5.get r := by
          refine ⟨hr.1, hr.2.1, ?_⟩
          rw [← x2 r h0]; exact hr.2.2
        rw [x2 r h0]
        exact w4 r this
      · simp only [not_or, not_not, not_le] at h0
        rw [h0.1, x3 h0.2]
        simp only
        omega
    · have : t.degree = weight C Q := tdeg
      rw [← this]
      exact hmaxDeg
    · refine f11.congr (fun c => ?_) (fun _ _ _ => rfl) (fun _ _ => rfl) (fun _ _ => rfl) (fun _ _ => rfl)
      simp only
      constructor
      · rintro ⟨c0, cn, hs⟩
        by_cases hQ' : c ∈ Q
        · right
          refine ⟨hQ', ?_⟩
          by_contra hcon
          rw [f9 c (Or.inr (by omega))] at hs
          exact hcon hs
        · left
          rw [f9 c (Or.inl hQ')] at hs
          simp only at hs
          have hne : c ≠ P := fun q => by
            rw [q, hDP] at hs
            omega
          rw [hDother c hQ' hne] at hs
          exact ⟨⟨⟨c0, cn, hs⟩, hne⟩, hQ'⟩
      · rintro (⟨⟨⟨c0, cn, hs⟩, hne⟩, hQ'⟩ | ⟨hQ', h0⟩)
        · refine ⟨c0, cn, ?_⟩
          rw [f9 c (Or.inl hQ'), hDother c hQ' hne]
          exact hs
        · refine ⟨(hQal c hQ').1, (hQal c hQ').2.1, ?_⟩
          rw [f10 c hQ' h0]
          exact h0
    · simp only at hc' ⊢
      by_cases hQ' : c ∈ Q
      · have h0 : 0 ≤ (D c).start := by
          by_contra hcon
          have := hc'.2.2
          rw [f9 c (Or.inr (by omega))] at this
          exact hcon this
        rw [f10 c hQ' h0]
        exact f14 c hQ' h0
      · have hs := hc'.2.2
        rw [f9 c (Or.inl hQ')] at hs ⊢
        simp only at hs ⊢
        have hne : c ≠ P := fun q => by
          rw [q, hDP] at hs
          omega
        rw [hDother c hQ' hne] at hs ⊢
        exact le_trans f13 (hminLe c ⟨hc'.1, hc'.2.1, hs⟩ hne)

theorem eliminate_of {m n n2 nnz aLen maxMark : Int} {aggressive : Bool} {s0 s : OrderState} {P : Int} (hmm : maxMark + n < 2 ^ 31) (hc : choosePivot m n aLen maxMark s0 = .ok (s, P))
    (h : Chosen m n n2 nnz aLen s P) :
    ∃ s', orderPivot m n aLen maxMark aggressive s0 = .ok s' ∧ OrderInv m n n2 nnz aLen s' ∧ s.k ≤ s'.k ∧ Frozen s.b.cols.get s'.b.cols.get ∧
      (s'.b.cols.get P).start = -1 ∧ (s'.b.cols.get P).score = (s.b.cols.get P).score ∧ (s'.b.cols.get P).thickness = (s.b.cols.get P).thickness := by
  obtain ⟨pivotRow, degree', s', e, g, y⟩ := pivoted_of (aggressive := aggressive) hmm hc h
  obtain ⟨⟨hfa, hg0, hgk, hmdn⟩, hrs, hcs, has, hhs, hroom, ⟨top, hp, htn⟩, hw, htag, hdegs, hmd, hP, hlists, hmin0, hminLe, ⟨root, hg⟩, hk0, hn2, hplaced, htotal, hscore⟩ := h
  have hk : s.k ≤ s'.k := by
    rw [g.k]
    have : 0 ≤ weight s.b.cols.get ((pivotSet n s.b.cols.get s.b.a.get P).filter
        (fun d => keptRows (differenced aggressive n s.tagMark s.b.rows.get s.b.cols.get s.b.a.get P) s.b.cols.get s.b.a.get d = ∅)) := Finset.sum_nonneg fun d hd => by
      have := hw.thick d (mem_pivotSet.1 (Finset.mem_filter.1 hd).1).1
      omega
    omega
  have htot := g.total htotal
  have hpiv : ∀ r, r = pivotRow ∧ 0 < degree' → (s'.b.rows.get r).degree = degree' := fun r hr => by
    rw [hr.1, (g.rowPivot hr.2).1]
  have hnot : ∀ r, AliveRow m s'.b.rows.get r → ¬ (r = pivotRow ∧ 0 < degree') → (r ≠ pivotRow ∨ degree' ≤ 0) ∧
      AliveRow m (differenced aggressive n s.tagMark s.b.rows.get s.b.cols.get s.b.a.get P) r := fun r hr hne => ((g.row_iff hp hP r).1 hr).resolve_left hne
  refine ⟨s', e, ⟨⟨hfa, by rw [y.fits.2.2]; exact hg0, by rw [y.fits.2.2]; omega, y.fits.2.1⟩, y.rsize, y.csize, y.asize, y.hsize, by rw [y.free]; exact hroom, ⟨top, by rw [y.free]; exact g.pattern hp hw htag hP (by omega), htn⟩,
    ⟨fun c hc' => g.thick hc', fun r hr => ?_, y.marks, by omega, y.fits.1⟩, y.tag, fun r hr => ?_, le_trans hmd y.maxDeg.1, y.lists, y.min0, y.minLe, g.groups, le_trans hk0 hk, hn2,
    g.placed, htot, fun c hc' => ?_⟩, hk, fun c hc' => ?_, g.pivot, g.pivotKeeps⟩
  · by_cases hrp : r = pivotRow ∧ 0 < degree'
    · rw [hpiv r hrp, hrp.1, g.colsOf_pivot hp hrp.2, g.sum_pivot]
    · obtain ⟨q1, q2⟩ := hnot r hr hrp
      exact g.degree_row hp hw q2 q1
  · by_cases hrp : r = pivotRow ∧ 0 < degree'
    · rw [hpiv r hrp, g.degree]
      refine le_trans ?_ y.maxDeg.2
      exact weight_mono (Finset.filter_subset _ _) (fun d hd => by
        have := hw.thick d (mem_pivotSet.1 hd).1
        omega)
    · obtain ⟨q1, q2⟩ := hnot r hr hrp
      rw [(g.rowsOther r q1).1]
      refine le_trans ?_ y.maxDeg.1
      exact hdegs r ⟨q2.1, q2.2.1, (diff_alive q2.2.2).2⟩
  · by_cases hQ : c ∈ pivotSet n s.b.cols.get s.b.a.get P
    · exact g.score_kept hp hw hn2 htot (le_trans hk0 hk) hc' hQ
    · obtain ⟨q1, q2, _⟩ := (g.alive_iff c).1 hc'
      refine le_trans (g.score_other hp hw htag hc' hQ) ?_
      rw [g.other c hQ q2]
      exact hscore c q1 q2
  · rw [g.other c (fun q => by have := (mem_pivotSet.1 q).1.2.2; omega) (fun q => by have := hP.2.2; rw [q] at hc'; omega)]
    exact ⟨hc', rfl, rfl⟩

end Fiksi.Amd
