import Verif.Proofs.AmdReady
import Verif.Proofs.AmdTree
import Verif.Proofs.ColamdChecks
/-!
# The whole ordering
-/
namespace Fiksi.Amd
open Classical

theorem fillHead_of {n : Int} (hn0 : 0 ≤ n) (head : Mem Int) (hh : n < head.size) :
    ∃ head', (span 0 (n + 1).toNat).foldlM (fun (head : Mem Int) c => head.write c (-1)) head = .ok head' ∧ head'.size = head.size ∧ ∀ i, 0 ≤ i → i ≤ n → head'.get i = -1 := by
  obtain ⟨head', e, h1, h2⟩ := foldlM_span (fun x (s : Mem Int) => s.size = head.size ∧ ∀ i, 0 ≤ i → i < x → s.get i = -1) (fun (head : Mem Int) c => head.write c (-1)) 0 (n + 1) (n + 1).toNat (by omega)
    head ⟨rfl, fun i _ _ => by omega⟩ (by
    rintro x x0 xn s ⟨i1, i2⟩
    rw [Mem.write_of _ x0 (by omega)]
    refine ⟨_, rfl, i1, fun i i0 ix => ?_⟩
    rcases eq_or_ne i x with rfl | hne
    · rw [Mem.put_get_self]
    · rw [Mem.put_get_ne _ _ hne]
      exact i2 i i0 (by omega))
  exact ⟨head', e, h1, fun i i0 i1 => h2 i i0 (by omega)⟩

/-- `init_scoring`. -/
theorem initScoring_of {m n nnz denseRow denseCol : Int} {b : ColamdBuffers} (hst : Start m n nnz b.rows.get b.cols.get b.a.get) (hr : m ≤ b.rows.size) (hc : n ≤ b.cols.size)
    (ha : nnz ≤ b.a.size) (hh : (b.head.size : Int) = n + 1) {aLen : Int} (haLen : aLen ≤ b.a.size) (hroom : 2 * nnz ≤ aLen) :
    ∃ b' nRow2 n2 maxDeg, initScoring m n denseRow denseCol b = .ok (b', nRow2, n2, maxDeg) ∧ b'.rows.size = b.rows.size ∧ b'.cols.size = b.cols.size ∧ b'.a.size = b.a.size ∧
      b'.head.size = b.head.size ∧ (0 ≤ n2 ∧ n2 ≤ n) ∧ (0 ≤ nRow2 ∧ nRow2 ≤ m) ∧
      ∀ rows' tag, rows'.size = b'.rows.size → aLen + n < 2 ^ 31 → 1 ≤ tag → tag + n + 1 < 2 ^ 31 →
        (∀ r, rows'.get r = { b'.rows.get r with mark := (rows'.get r).mark } ∧ (0 ≤ (rows'.get r).mark ↔ 0 ≤ (b'.rows.get r).mark)) →
        (∀ r, AliveRow m rows'.get r → (rows'.get r).mark < tag) →
        OrderInv m n n2 nnz aLen ⟨⟨rows', b'.cols, b'.a, b'.head⟩, 0, tag, 0, maxDeg, 2 * nnz, 0⟩ := by
  have hm0 := hst.pattern.rows0
  have hn0 := hst.pattern.cols0
  unfold initScoring
  obtain ⟨cols1, k1, e1, s1, r1, u1, c1⟩ := killEmpty_of hst b.cols rfl hc
  rw [e1, ok_bind]
  simp only
  obtain ⟨rows2, cols2, k2, e2, sr2, sc2, r2, u2, d2⟩ := killDense_of hst denseCol b.a rfl ha b.rows rfl hr cols1 (by omega) r1 u1 c1
  rw [e2, ok_bind]
  simp only
  have hsm := hst.pattern.small
  obtain ⟨rows3, nRow2, maxDeg, e3, s3, ⟨md3, mdn⟩, nr3, q3, d3⟩ := killDenseRows_of hm0 denseRow rows2 (by omega) m ⟨le_refl _, hsm.1⟩
  rw [e3, ok_bind]
  simp only
  have hP := hst.restrict u2
  have hrr : RowsReady m n b.rows.get cols2.get b.a.get rows3.get := by
    refine ⟨fun r r0 rm => ?_, fun r r0 rm => ?_⟩
    · rw [q3 r, d2 r r0 rm]; exact ⟨rfl, rfl⟩
    · rw [q3 r, d2 r r0 rm]
  have hdeg : ∀ c r, AliveCol n cols2.get c → InCol cols2.get b.a.get c r → 1 ≤ (rows3.get r).degree ∧ (rows3.get r).degree ≤ n := fun c r hc hin => by
    have hrow := hP.colRow c hc r hin
    rw [hrr.degree r hrow.1 hrow.2.1]
    have : 0 < (colsOf n cols2.get b.a.get r).card := Finset.card_pos.2 ⟨c, mem_colsOf.2 ⟨hc, hin⟩⟩
    have := card_colsOf hn0 (C := cols2.get) (A := b.a.get) (r := r)
    omega
  obtain ⟨cols4, a4, k4, e4, sc4, sa4, hsc⟩ := scoreColumns_of hP b.a rfl ha rows3 (by omega) cols2 rfl (by omega) r2 hdeg
  rw [e4, ok_bind]
  simp only
  rw [i32_of (by omega) (by omega), ok_bind]
  obtain ⟨head5, e5, s5, h5⟩ := fillHead_of hn0 b.head (by omega)
  rw [e5, ok_bind]
  obtain ⟨cols6, head6, e6, s6, sh6, same, lists⟩ := listColumns_of hn0 cols4 (by omega) head5 (by omega) h5 (fun c hc => by
    rw [hsc.cols c hc]
    exact startScore_range hrr hP ((hsc.live c).1 hc).1)
  rw [e6, ok_bind]
  have hkn := hsc.removed.le hn0
  refine ⟨_, nRow2, k4, maxDeg, rfl, by simp only; omega, by simp only; omega, by simp only; omega, by simp only; omega, hkn, nr3, fun rows' tag hs hfit htag htagn hrows hmarks => ?_⟩
  simp only at hs hrows
  have hpat := same.pattern (scored_pattern hst u2 hrr hsc)
  have hrem : Removed n cols6.get k4 := hsc.removed.congr (fun c _ _ => same.start c) (fun c _ _ => same.thickness c) (fun c _ _ _ => same.score c)
  have halive : ∀ r, AliveRow m rows'.get r ↔ AliveRow m rows3.get r := fun r => by
    unfold AliveRow
    rw [(hrows r).2]
  have hcols6 : ∀ r, 0 ≤ (rows3.get r).mark → colsOf n cols6.get a4.get r = colsOf n cols2.get b.a.get r := fun r hr => by
    rw [← colsOf_scored hsc hr]
    ext c
    rw [mem_colsOf, mem_colsOf, same.aliveCol, same.inCol]
  have hdegr : ∀ r, AliveRow m rows3.get r → (rows'.get r).degree = (colsOf n cols2.get b.a.get r).card ∧ (rows'.get r).degree ≤ maxDeg := fun r hr => by
    have e : (rows'.get r).degree = (rows3.get r).degree := by rw [(hrows r).1]
    rw [e, hrr.degree r hr.1 hr.2.1]
    refine ⟨rfl, ?_⟩
    have hd : (rows2.get r).degree = (colsOf n cols2.get b.a.get r).card := by rw [d2 r hr.1 hr.2.1]
    rw [← hd]
    rcases d3 r hr.1 hr.2.1 with q | ⟨_, q⟩
    · have := hr.2.2
      omega
    · exact q
  refine
    { fits := ⟨hfit, le_refl _, le_refl _, mdn n hn0 fun r r0 rm => ?_⟩
      rsize := ?_
      csize := ?_
      asize := ?_
      hsize := ?_
      free := ?_
      pattern := ⟨nnz, ?_, le_refl _⟩
      weights := ⟨fun c hc => ?_, fun r hr => ?_, hmarks, ?_, htagn⟩
      tag := htag
      degs := fun r hr => ?_
      maxDeg := md3
      lists := lists
      min0 := le_refl _
      minLe := fun c hc => ?_
      groups := ⟨id, ?_⟩
      k0 := le_refl _
      n2Le := hkn.2
      placed := hrem.placed
      total := ?_
      score := fun c hc => ?_ }
  · rw [d2 r r0 rm]
    exact card_colsOf hn0
  · simp only; omega
  · simp only; omega
  · simp only; omega
  · simp only; omega
  · simp only; omega
  · simp only
    obtain ⟨p1, p2, p3, p4, psm, p5, p6, p7, p8, p9, p10, p11, p12, p13, p14⟩ := hpat
    have hst' : ∀ r, (rows'.get r).start = (rows3.get r).start := fun r => by rw [(hrows r).1]
    have hlen' : ∀ r, (rows'.get r).length = (rows3.get r).length := fun r => by rw [(hrows r).1]
    have hinr : ∀ r c, InRow rows'.get a4.get r c ↔ InRow rows3.get a4.get r c := fun r c => by
      unfold InRow
      rw [hst', hlen']
    refine ⟨p1, p2, p3, p4, psm, p5, p6, fun r hr => ?_, fun r s hr hs hne => ?_, p9, p10, fun r hr => ?_, fun c hc r hin => (halive r).2 (p12 c hc r hin),
      fun r hr c hc => p13 r ((halive r).1 hr) c ((hinr r c).1 hc), fun c r hc hr => (p14 c r hc ((halive r).1 hr)).trans (hinr r c).symm⟩
    · rw [hst', hlen']; exact p7 r ((halive r).1 hr)
    · rw [hst', hlen', hst', hlen']; exact p8 r s ((halive r).1 hr) ((halive s).1 hs) hne
    · rw [hst', hlen']; exact p11 r ((halive r).1 hr)
  · simp only
    rw [hrem.thick c hc.1 hc.2.1]
  · simp only
    have hr3 := (halive r).1 hr
    rw [(hdegr r hr3).1, thick_weight hrem colsOf_range, hcols6 r hr3.2.2]
  · simp only
    rw [thick_weight hrem (fun c hc => ⟨(mem_alive.1 hc).1, (mem_alive.1 hc).2.1⟩), hrem.card]
    exact hkn.2
  · exact (hdegr r ((halive r).1 hr)).2
  · simp only
    rw [same.score]
    simp only at hc
    rw [same.aliveCol] at hc
    rw [hsc.cols c hc]
    exact (startScore_range hrr hP ((hsc.live c).1 hc).1).1
  · refine ⟨fun c c0 cn => ?_, fun c _ _ _ => rfl, fun c c0 cn => ?_, fun c c0 cn hd => ?_, fun c c0 cn hd => ?_, ⟨fun _ => 0, fun c c0 cn hd => ?_⟩, fun c c0 cn _ => ?_⟩
    · rcases hrem.kind c c0 cn with q | q
      · exact Or.inl q
      · exact Or.inr (Or.inl q)
    · refine ⟨c0, cn, ?_⟩
      rcases hrem.kind c c0 cn with q | q
      · simp only [id]; omega
      · simp only [id]; omega
    · simp only at hd
      rcases hrem.kind c c0 cn with q | q <;> omega
    · simp only at hd
      rcases hrem.kind c c0 cn with q | q <;> omega
    · simp only at hd
      rcases hrem.kind c c0 cn with q | q <;> omega
    · simp only
      rw [hrem.thick c c0 cn]
      have : (Finset.Ico 0 n).filter (fun d => id d = c) = {c} := by
        ext d
        simp only [Finset.mem_filter, Finset.mem_Ico, Finset.mem_singleton, id]
        omega
      rw [this]
      simp
  · simp only
    rw [thick_weight hrem (fun c hc => ⟨(mem_alive.1 hc).1, (mem_alive.1 hc).2.1⟩), hrem.card]
    omega
  · simp only at hc ⊢
    rw [same.weight, same.pivotSet, same.score]
    rw [same.aliveCol] at hc
    exact startScore_bound hrr hP hsc hc

/-- If columns are ordered at all, the first one had the least score. -/
def StartsLeast (n n2 : Int) (C C' : Int → ColamdCol) : Prop :=
  0 < n2 → ∃ P, Least n C P ∧ (C' P).start = -1 ∧ (C' P).score = 0 ∧ (C' P).thickness = (C P).thickness

/-- If the columns form a forest, the ordering keeps what `Tree` says. -/
def KeepsTree (n n2 : Int) (C : Int → ColamdCol) (A : Int → Int) (C' : Int → ColamdCol) : Prop :=
  ∀ (K : Int → Prop) (Nb : Int → Int → Prop), (∀ c d, Nb c d → Nb d c) → (∀ c, ¬ Nb c c) → Loose K Nb → Tree n n2 K Nb (-1) 0 C A → ∃ k A', Tree n n2 K Nb (-1) k C' A'

/-- `init_scoring` and `find_ordering`. -/
theorem findOrdering_of {m n nnz denseRow denseCol : Int} {b : ColamdBuffers} (hst : Start m n nnz b.rows.get b.cols.get b.a.get) (hr : m ≤ b.rows.size) (hc : n ≤ b.cols.size)
    (hh : (b.head.size : Int) = n + 1) {aLen : Int} (haLen : aLen ≤ b.a.size) (hroom : 2 * nnz + n ≤ aLen) (hfit : aLen + n < 2 ^ 31) (aggressive : Bool) :
    ∃ b1 nRow2 n2 maxDeg b2 garbage, (0 ≤ n2 ∧ n2 ≤ n ∧ 0 ≤ nRow2 ∧ nRow2 ≤ m) ∧ initScoring m n denseRow denseCol b = .ok (b1, nRow2, n2, maxDeg) ∧ findOrdering m n aLen b1 n2 maxDeg (2 * nnz) aggressive = .ok (b2, garbage) ∧
      n ≤ b2.cols.size ∧ b2.head.get n = -1 ∧ (b2.head.size : Int) = n + 1 ∧ Frozen b1.cols.get b2.cols.get ∧
      StartsLeast n n2 b1.cols.get b2.cols.get ∧ KeepsTree n n2 b1.cols.get b1.a.get b2.cols.get ∧
      ∃ root, Spec.Grouped n b2.cols.get root := by
  have hm0 := hst.pattern.rows0
  have hn0 := hst.pattern.cols0
  have ht := hst.pattern.top0
  obtain ⟨b1, nRow2, n2, maxDeg, e1, z1, z2, z3, z4, z5, z6, hinv⟩ := initScoring_of (denseRow := denseRow) (denseCol := denseCol) hst hr hc (by omega) hh haLen (by omega)
  have hsm := hst.pattern.small
  obtain ⟨rows', tag, e2, y1, y2, y3, y4, y5⟩ := clearMark_of hm0 b1.rows (by omega) 0 (2147483647 - n) (by omega)
  obtain ⟨s, e3, inv, hk, hfro, hfirst⟩ := orderLoop_of (maxMark := 2147483647 - n) (aggressive := aggressive) hroom (by omega) (n2.toNat + 1) (hinv rows' tag y1 hfit y2 (by omega) y3 y4) (by simp only; omega)
  have hfin := inv.finish hk
  have hnone : ∀ c, ¬ AliveCol n s.b.cols.get c := fun c hc => by
    have htot := inv.total
    have hthick := inv.weights.thick
    have : 1 ≤ weight s.b.cols.get (alive n s.b.cols.get) := by
      have h1 := hthick c hc
      refine h1.trans ?_
      exact Finset.single_le_sum (f := fun d => (s.b.cols.get d).thickness) (fun d hd => by
        have := hthick d (mem_alive.1 hd)
        omega) (mem_alive.2 hc)
    omega
  refine ⟨b1, nRow2, n2, maxDeg, s.b, s.garbage, ⟨z5.1, z5.2, z6⟩, e1, ?_, inv.csize, ?_, inv.hsize, hfro, hfirst, fun K Nb hsym hirr hloose t => ⟨s.k, s.b.a.get,
    orderLoop_tree hroom (by omega) hsym hirr hloose _ (hinv rows' tag y1 hfit y2 (by omega) y3 y4) t e3⟩, hfin⟩
  · unfold findOrdering
    simp only
    rw [i32_of (by omega) (by omega), ok_bind, e2, ok_bind]
    simp only
    rw [e3]
    rfl
  · rcases inv.lists.headOf n hn0 (le_refl _) with q | ⟨q, _⟩
    · exact q
    · exact absurd q (hnone _)

end Fiksi.Amd
