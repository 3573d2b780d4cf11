import Verif.Proofs.AmdElim
import Verif.Proofs.AmdGarbage
/-!
# The choice of the pivot
-/
namespace Fiksi.Amd
open Classical

/-- After the pivot has been taken from its list; there may not yet be room for the pivot row. -/
structure Taken (m n n2 nnz aLen : Int) (s : OrderState) (P : Int) : Prop where
  fits : aLen + n < 2 ^ 31 ∧ 0 ≤ s.garbage ∧ s.garbage ≤ s.k ∧ s.maxDeg ≤ n
  rsize : m ≤ s.b.rows.size
  csize : n ≤ s.b.cols.size
  asize : aLen ≤ s.b.a.size
  hsize : (s.b.head.size : Int) = n + 1
  free : s.pfree ≤ aLen
  pattern : ∃ top, Pattern m n top s.pfree s.b.rows.get s.b.cols.get s.b.a.get ∧ top ≤ nnz
  weights : Weights m n s.tagMark s.b.rows.get s.b.cols.get s.b.a.get
  tag : 1 ≤ s.tagMark
  degs : ∀ r, AliveRow m s.b.rows.get r → (s.b.rows.get r).degree ≤ s.maxDeg
  maxDeg : 0 ≤ s.maxDeg
  pivot : AliveCol n s.b.cols.get P
  lists : DegLists n (fun c => AliveCol n s.b.cols.get c ∧ c ≠ P) s.b.head.get (fun c => (s.b.cols.get c).score) (fun c => (s.b.cols.get c).prev)
    (fun c => (s.b.cols.get c).next)
  min0 : 0 ≤ s.minScore
  minLe : ∀ c, AliveCol n s.b.cols.get c → c ≠ P → s.minScore ≤ (s.b.cols.get c).score
  groups : ∃ root, Groups n s.b.cols.get root
  k0 : 0 ≤ s.k
  n2Le : n2 ≤ n
  placed : Placed n s.k n2 (fun c => 0 ≤ c ∧ c < n ∧ ((s.b.cols.get c).start = -1 ∨ c = P)) s.b.cols.get
  total : s.k + weight s.b.cols.get ((alive n s.b.cols.get).erase P) = n2
  score : ∀ c, AliveCol n s.b.cols.get c → c ≠ P → weight s.b.cols.get (pivotSet n s.b.cols.get s.b.a.get c) ≤ (s.b.cols.get c).score

/-- Columns in use may have been moved; otherwise only pivot `P` has another score. -/
structure Moved (n P : Int) (C : Int → ColamdCol) (A : Int → Int) (C' : Int → ColamdCol) (A' : Int → Int) : Prop where
  alive : ∀ c, AliveCol n C' c ↔ AliveCol n C c
  dead : ∀ c, ¬ AliveCol n C c → (C' c).start = (C c).start
  score : ∀ c, c ≠ P → (C' c).score = (C c).score
  thickness : ∀ c, (C' c).thickness = (C c).thickness
  inCol : ∀ c, AliveCol n C c → ∀ r, InCol C' A' c r ↔ InCol C A c r

theorem Moved.trans {n P : Int} {C C' C'' : Int → ColamdCol} {A A' A'' : Int → Int} (h : Moved n P C A C' A') (h' : Moved n P C' A' C'' A'') : Moved n P C A C'' A'' :=
  ⟨fun c => (h'.alive c).trans (h.alive c), fun c hc => (h'.dead c (fun q => hc ((h.alive c).1 q))).trans (h.dead c hc), fun c hc => (h'.score c hc).trans (h.score c hc),
    fun c => (h'.thickness c).trans (h.thickness c), fun c hc r => (h'.inCol c ((h.alive c).2 hc) r).trans (h.inCol c hc r)⟩

theorem Taken.chosen {m n n2 nnz aLen : Int} {s : OrderState} {P : Int} (h : Taken m n n2 nnz aLen s P)
    (hr : s.pfree + (pivotSet n s.b.cols.get s.b.a.get P).card ≤ aLen) : Chosen m n n2 nnz aLen s P := by
  obtain ⟨h0, h1, h2, h3, h4, _, h5, h6, h7, h8, h9, h10, h11, h12, h13, h14, h15, h16, h17, h18, h19⟩ := h
  exact ⟨h0, h1, h2, h3, h4, hr, h5, h6, h7, h8, h9, h10, h11, h12, h13, h14, h15, h16, h17, h18, h19⟩

theorem card_le_weight {n : Int} {C : Int → ColamdCol} {S : Finset Int} (h : ∀ c ∈ S, 1 ≤ (C c).thickness) : (S.card : Int) ≤ weight C S := by
  unfold weight
  have := Finset.sum_le_sum h
  simpa using this

/-- The columns of the pivot row are among those still to be ordered. -/
theorem Taken.card {m n n2 nnz aLen : Int} {s : OrderState} {P : Int} (h : Taken m n n2 nnz aLen s P) :
    s.k + weight s.b.cols.get (pivotSet n s.b.cols.get s.b.a.get P) ≤ n2 ∧
      ((pivotSet n s.b.cols.get s.b.a.get P).card : Int) ≤ weight s.b.cols.get (pivotSet n s.b.cols.get s.b.a.get P) := by
  constructor
  · rw [← h.total]
    have : weight s.b.cols.get (pivotSet n s.b.cols.get s.b.a.get P) ≤ weight s.b.cols.get ((alive n s.b.cols.get).erase P) :=
      weight_mono (fun d hd => Finset.mem_erase.2 ⟨(mem_pivotSet.1 hd).2.1, mem_alive.2 (mem_pivotSet.1 hd).1⟩) (fun d hd => by
        have := h.weights.thick d (mem_alive.1 (Finset.mem_erase.1 hd).2)
        omega)
    omega
  · exact card_le_weight (n := n) fun d hd => h.weights.thick d (mem_pivotSet.1 hd).1

/-- Garbage collection. -/
theorem Taken.collect {m n n2 nnz aLen maxMark : Int} {s : OrderState} {P : Int} (h : Taken m n n2 nnz aLen s P) (hn : 2 * nnz + n ≤ aLen) (hmm : maxMark + n < 2 ^ 31)
    (hgk : s.garbage + 1 ≤ s.k) :
    ∃ b pfree rows tag, garbageCollection m n s.b s.pfree = .ok (b, pfree) ∧ clearMark 0 maxMark m b.rows = .ok (rows, tag) ∧
      Taken m n n2 nnz aLen ⟨⟨rows, b.cols, b.a, b.head⟩, s.k, tag, s.minScore, s.maxDeg, pfree, s.garbage + 1⟩ P ∧ pfree ≤ 2 * nnz ∧ Frozen s.b.cols.get b.cols.get ∧
      (∀ c, (b.cols.get c).score = (s.b.cols.get c).score ∧ (b.cols.get c).thickness = (s.b.cols.get c).thickness) ∧ Moved n P s.b.cols.get s.b.a.get b.cols.get b.a.get := by
  obtain ⟨h0, h1, h2, h3, h4, h4', ⟨top, hp, ht⟩, hw, h7, h8, h9, h10, h11, h12, h13, ⟨root, h14⟩, h15, h16, h17, h18, h19⟩ := h
  obtain ⟨b, pfree, top', e1, b1, b2, b3, b4, g⟩ := garbage_of hp (by have := h0.1; omega) s.b rfl rfl rfl h1 h2 (by omega)
  obtain ⟨rows, tag, e2, w1, w2, w3, w4, w5⟩ := clearMark_of hp.rows0 b.rows (by omega) 0 maxMark (fun q => absurd q (lt_irrefl _))
  have hst := g.alive
  have f1 : ∀ c, (b.cols.get c).length = (s.b.cols.get c).length := fun c => by rw [g.cols c]
  have f2 : ∀ c, (b.cols.get c).thickness = (s.b.cols.get c).thickness := fun c => by rw [g.cols c]
  have f3 : ∀ c, (b.cols.get c).score = (s.b.cols.get c).score := fun c => by rw [g.cols c]
  have f4 : ∀ c, (b.cols.get c).prev = (s.b.cols.get c).prev := fun c => by rw [g.cols c]
  have f5 : ∀ c, (b.cols.get c).next = (s.b.cols.get c).next := fun c => by rw [g.cols c]
  have hal : alive n b.cols.get = alive n s.b.cols.get := by
    ext c
    rw [mem_alive, mem_alive, hst]
  have hwt : ∀ S, weight b.cols.get S = weight s.b.cols.get S := fun S => Finset.sum_congr rfl fun d _ => f2 d
  have hneg : ∀ c, 0 ≤ c → c < n → ∀ v : Int, v < 0 → ((b.cols.get c).start = v ↔ (s.b.cols.get c).start = v) := fun c c0 cn v hv => by
    by_cases hc : AliveCol n s.b.cols.get c
    · have q1 := hc.2.2
      have q2 := ((hst c).2 hc).2.2
      omega
    · rw [g.dead c hc]
  have hrow : ∀ r, AliveRow m rows.get r ↔ AliveRow m b.rows.get r := fun r => by
    unfold AliveRow
    rw [(w3 r).2]
  have hcolsOf : ∀ r, colsOf n b.cols.get b.a.get r = colsOf n s.b.cols.get s.b.a.get r := fun r => by
    ext c
    rw [mem_colsOf, mem_colsOf, hst]
    exact and_congr_right fun hc => g.inCol c hc r
  have hpiv : ∀ c, AliveCol n s.b.cols.get c → pivotSet n b.cols.get b.a.get c = pivotSet n s.b.cols.get s.b.a.get c := fun c hc => by
    ext d
    rw [mem_pivotSet, mem_pivotSet, hst]
    refine and_congr_right fun hd => and_congr_right fun _ => exists_congr fun r => ?_
    rw [g.inCol c hc, g.inCol d hd]
  have hsmn := hp.small.2.1
  refine ⟨b, pfree, rows, tag, e1, e2, ⟨⟨h0.1, by have := h0.2.1; simp only; omega, hgk, h0.2.2.2⟩, by simp only; omega, by simp only; omega, by simp only; omega, by simp only [b4]; omega, ?_, ⟨top', ?_, by have := g.topLe; omega⟩, ⟨?_, ?_, w4, ?_, by have := hp.cols0; simp only; omega⟩, w2, ?_, h9,
    (hst P).2 h10, ?_, h12, ?_, ⟨root, ?_⟩, h15, h16, ?_, ?_, ?_⟩, ?_⟩
  · simp only
    have := g.topLe
    have := g.free
    have := hp.cols0
    omega
  · -- only the marks differ
    obtain ⟨p1, p2, p3, p4, psm, p5, p6, p7, p8, p9, p10, p11, p12, p13, p14⟩ := g.pattern
    have k1 : ∀ r, (rows.get r).start = (b.rows.get r).start := fun r => by rw [(w3 r).1]
    have k2 : ∀ r, (rows.get r).length = (b.rows.get r).length := fun r => by rw [(w3 r).1]
    refine ⟨p1, p2, p3, p4, psm, p5, p6, fun r hr => ?_, fun r s hr hs hne => ?_, p9, p10, fun r hr => ?_, fun c hc r hr => ?_, fun r hr c hc => ?_, fun c r hc hr => ?_⟩
    · simp only
      rw [k1, k2]; exact p7 r ((hrow r).1 hr)
    · simp only
      rw [k1, k2, k1, k2]; exact p8 r s ((hrow r).1 hr) ((hrow s).1 hs) hne
    · simp only
      rw [k1, k2]; exact p11 r ((hrow r).1 hr)
    · exact (hrow r).2 (p12 c hc r hr)
    · refine p13 r ((hrow r).1 hr) c ?_
      unfold InRow at hc ⊢
      simp only at hc
      rw [k1, k2] at hc
      exact hc
    · have := p14 c r hc ((hrow r).1 hr)
      unfold InRow at this ⊢
      simp only
      rw [k1, k2]
      exact this
  · intro c hc
    simp only
    rw [f2]
    exact hw.thick c ((hst c).1 hc)
  · intro r hr
    obtain ⟨q1, q2⟩ := g.rows r ((hrow r).1 hr)
    simp only
    rw [(w3 r).1, hcolsOf, hwt]
    simp only
    rw [q2]
    exact hw.degree r q1
  · simp only
    rw [hal, hwt]
    exact hw.total
  · intro r hr
    obtain ⟨q1, q2⟩ := g.rows r ((hrow r).1 hr)
    simp only
    rw [(w3 r).1]
    simp only
    rw [q2]
    exact h8 r q1
  · refine h11.congr (fun c => by simp only; rw [hst]) (fun _ _ _ => by simp only [b4]) (fun c _ => f3 c) (fun c _ => f4 c) (fun c _ => f5 c)
  · intro c hc hne
    simp only
    rw [f3]
    exact h13 c ((hst c).1 hc) hne
  · refine h14.congr (fun c c0 cn => ?_) (fun c c0 cn => hneg c c0 cn (-2) (by omega)) (fun c _ _ => f2 c) (fun c _ _ _ => f3 c)
    simp only
    by_cases hc : AliveCol n s.b.cols.get c
    · exact Or.inl ((hst c).2 hc).2.2
    · rw [g.dead c hc]; exact h14.kind c c0 cn
  · refine h17.congr (fun c hc => ⟨hc.1, hc.2.1, ?_⟩) (fun c _ => ⟨f3 c, f2 c⟩)
    rcases hc.2.2 with q | q
    · exact Or.inl ((hneg c hc.1 hc.2.1 (-1) (by omega)).1 q)
    · exact Or.inr q
  · simp only
    rw [hal, hwt]
    exact h18
  · intro c hc hne
    simp only
    rw [hpiv c ((hst c).1 hc), hwt, f3]
    exact h19 c ((hst c).1 hc) hne
  · refine ⟨?_, fun c hc => ?_, fun c => ⟨f3 c, f2 c⟩, ⟨hst, fun c hc => by rw [g.dead c hc], fun c _ => f3 c, f2, g.inCol⟩⟩
    · have := g.topLe
      have := g.free
      omega
    · rw [g.dead c (fun q => by have := q.2.2; omega)]
      exact ⟨hc, rfl, rfl⟩

theorem choosePivot_of {m n n2 nnz aLen maxMark : Int} {s : OrderState} (h : OrderInv m n n2 nnz aLen s) (hk : s.k < n2) (hn : 2 * nnz + n ≤ aLen) (hmm : maxMark + n < 2 ^ 31) :
    ∃ s' P, choosePivot m n aLen maxMark s = .ok (s', P) ∧ Chosen m n n2 nnz aLen s' P ∧ s.k < s'.k ∧ Frozen s.b.cols.get s'.b.cols.get ∧
      Least n s.b.cols.get P ∧ (s'.b.cols.get P).score = s.k ∧ (s'.b.cols.get P).thickness = (s.b.cols.get P).thickness ∧
      s'.k = s.k + (s.b.cols.get P).thickness ∧ Moved n P s.b.cols.get s.b.a.get s'.b.cols.get s'.b.a.get := by
  obtain ⟨h0, h1, h2, h3, h4, h5, ⟨top, hp, ht⟩, hw, h7, h8, h9, hl, h12, h13, ⟨root, hg⟩, h15, h16, h17, h18, h19⟩ := h
  -- there is a column left
  have hne : alive n s.b.cols.get ≠ ∅ := fun q => by
    rw [q] at h18
    simp [weight] at h18
    omega
  obtain ⟨c0, hc0⟩ := Finset.nonempty_iff_ne_empty.2 hne
  rw [mem_alive] at hc0
  have hsc0 := h13 c0 hc0
  have hsn := (hl.range c0 hc0).2.2.2
  obtain ⟨ms, e1, m1, m2, m3, m4, m5, m6⟩ := findScore_of s.b.head hl (by omega) (by have := hp.small; omega) hc0 ((n - s.minScore).toNat + 1) s.minScore h12 h13 (by omega)
  unfold choosePivot
  rw [e1, ok_bind, Mem.read_of (by omega) (by omega), ok_bind]
  set P := s.b.head.get ms with hPdef
  set C := s.b.cols.get with hC
  have hP0 := m4.1
  have hPn := m4.2.1
  have hthick := hw.thick P m4
  rw [Mem.read_of hP0 (by omega), ok_bind, Mem.write_of _ (by omega) (by omega), ok_bind]
  simp only [← hC]
  have hnext : (C P).next ≠ -1 → 0 ≤ (C P).next ∧ (C P).next < n ∧ (C P).next ≠ P := fun hne' => by
    rcases hl.nextOf P m4 with q | ⟨q1, q2, q3⟩
    · exact absurd q hne'
    · refine ⟨q1.1, q1.2.1, fun he => ?_⟩
      rw [he] at q3
      rw [q3] at m6
      omega
  have hcols : ∃ cols, (if (C P).next ≠ -1 then s.b.cols.modify (C P).next (fun x => { x with prev := -1 }) else pure s.b.cols) = .ok cols ∧
      cols.size = s.b.cols.size ∧ ∀ c, cols.get c = { C c with prev := if c = (C P).next ∧ (C P).next ≠ -1 then -1 else (C c).prev } := by
    by_cases hne' : (C P).next ≠ -1
    · obtain ⟨n0, n1, _⟩ := hnext hne'
      rw [if_pos hne', Mem.modify_of _ n0 (by omega)]
      refine ⟨_, rfl, rfl, fun c => ?_⟩
      rw [Mem.put_get]
      by_cases hc : c = (C P).next
      · rw [if_pos hc, if_pos ⟨hc, hne'⟩, hc]
      · rw [if_neg hc, if_neg (fun q => hc q.1)]
    · rw [if_neg hne']
      refine ⟨_, rfl, rfl, fun c => ?_⟩
      rw [if_neg (fun q => hne' q.2)]
  obtain ⟨cols, e2, c1, c2⟩ := hcols
  rw [bind_ite, e2, ok_bind, Mem.modify_of _ hP0 (by omega), ok_bind]
  set D := (cols.put P { cols.get P with score := s.k }).get with hD
  have hDc : ∀ c, D c = { C c with
      score := if c = P then s.k else (C c).score
      prev := if c = (C P).next ∧ (C P).next ≠ -1 then -1 else (C c).prev } := fun c => by
    rw [hD, Mem.put_get]
    by_cases hc : c = P
    · rw [if_pos hc, if_pos hc, c2, hc]
    · rw [if_neg hc, if_neg hc, c2]
  have d1 : ∀ c, (D c).start = (C c).start := fun c => by rw [hDc]
  have d2 : ∀ c, (D c).length = (C c).length := fun c => by rw [hDc]
  have d3 : ∀ c, (D c).thickness = (C c).thickness := fun c => by rw [hDc]
  have d4 : ∀ c, c ≠ P → (D c).score = (C c).score := fun c hne' => by rw [hDc, if_neg hne']
  have d4' : (D P).score = s.k := by rw [hDc, if_pos rfl]
  have d5 : ∀ c, (D c).next = (C c).next := fun c => by rw [hDc]
  have hal : AliveCol n D = AliveCol n C := by
    funext c; unfold AliveCol; rw [d1]
  have hals : alive n D = alive n C := by unfold alive; rw [hal]
  have hin : InCol D s.b.a.get = InCol C s.b.a.get := by
    funext c r; unfold InCol; rw [d1, d2]
  have hwt : weight D = weight C := by
    funext S; exact Finset.sum_congr rfl fun d _ => d3 d
  have hps : pivotSet n D s.b.a.get = pivotSet n C s.b.a.get := by
    funext c; unfold pivotSet; rw [hals, hin]
  have hco : colsOf n D s.b.a.get = colsOf n C s.b.a.get := by
    funext c; unfold colsOf; rw [hals, hin]
  have hsplit : (C P).thickness + weight C ((alive n C).erase P) = weight C (alive n C) :=
    Finset.add_sum_erase _ (fun d => (C d).thickness) (mem_alive.2 m4)
  have hnn : 0 ≤ weight C ((alive n C).erase P) := Finset.sum_nonneg fun d hd => by
    have := hw.thick d (mem_alive.1 (Finset.mem_erase.1 hd).2)
    omega
  -- the pivot has been taken
  have htaken : ∀ g, 0 ≤ g → g ≤ s.k → Taken m n n2 nnz aLen ⟨⟨s.b.rows, cols.put P { cols.get P with score := s.k }, s.b.a, s.b.head.put ms (C P).next⟩, s.k + (C P).thickness, s.tagMark, ms,
      s.maxDeg, s.pfree, g⟩ P := by
    intro g hg0 hgk
    refine ⟨⟨h0.1, hg0, by simp only; omega, h0.2.2.2⟩, h1, by simp only [Mem.put_size]; omega, h3, by simp only [Mem.put_size]; omega, h5, ⟨top, ?_, ht⟩, ⟨?_, ?_, hw.marks, ?_, hw.tagSmall⟩, h7, h8, h9, ?_, ?_, by simp only; omega, ?_, ⟨root, ?_⟩, by simp only; omega, h16, ?_,
      ?_, ?_⟩
    · simp only [← hD]
      obtain ⟨p1, p2, p3, p4, psm, p5, p6, p7, p8, p9, p10, p11, p12, p13, p14⟩ := hp
      refine ⟨p1, p2, p3, p4, psm, fun c hc => ?_, fun c d hc hd hlt => ?_, p7, p8, p9, fun c hc => ?_, p11, fun c hc r hr => ?_, p13, fun c r hc hr => ?_⟩
      · rw [hal] at hc; rw [d1, d2]; exact p5 c hc
      · rw [hal] at hc hd; rw [d1, d2, d1]; exact p6 c d hc hd hlt
      · rw [hal] at hc; rw [d1, d2]; exact p10 c hc
      · rw [hal] at hc; rw [hin] at hr; exact p12 c hc r hr
      · rw [hal] at hc; rw [hin]; exact p14 c r hc hr
    · simp only [← hD]
      intro c hc
      rw [hal] at hc
      rw [d3]
      exact hw.thick c hc
    · simp only [← hD]
      intro r hr
      rw [hco, hwt]
      exact hw.degree r hr
    · simp only [← hD]
      rw [hals, hwt]
      exact hw.total
    · simp only [← hD]
      rw [hal]
      exact m4
    · simp only [← hD]
      refine hl.unlink (c := P) m4 (fun d => by rw [hal]) (fun i => ?_) (fun d hd => d4 d hd.2) (fun d hd => ?_) (fun d hd => ?_)
      · rw [Mem.put_get]
        simp only [m6, m5, true_and]
      · rw [hDc]
        simp only
        by_cases hd' : d = (C P).next
        · rw [if_pos hd', m6]
          rw [if_pos ⟨hd', fun q => by have := hd.1.1; omega⟩]
        · rw [if_neg hd', if_neg (fun q => hd' q.1)]
      · rw [d5, if_neg]
        rw [m6]
        intro q
        have := hd.1.1
        omega
    · simp only [← hD]
      intro c hc hne'
      rw [hal] at hc
      rw [d4 c hne']
      exact m3 c hc
    · simp only [← hD]
      refine hg.congr (fun c a b => by rw [d1]; exact hg.kind c a b) (fun c _ _ => by rw [d1]) (fun c _ _ => d3 c) (fun c _ _ hs => d4 c fun q => ?_)
      rw [q] at hs
      have := m4.2.2
      omega
    · simp only [← hD]
      refine h17.push (c := P) h15 (by rw [d3]) (by rw [d3]; omega) (by omega) d4' (fun d hd => ?_) (fun d hd hne' => ⟨d4 d hne', d3 d⟩)
      rcases hd.2.2 with q | q
      · left
        rw [d1] at q
        exact ⟨hd.1, hd.2.1, q⟩
      · exact Or.inr q
    · simp only [← hD]
      rw [hals, hwt]
      omega
    · simp only [← hD]
      intro c hc hne'
      rw [hal] at hc
      rw [hps, hwt, d4 c hne']
      exact h19 c hc
  have hfrozen : Frozen C D := fun c hc => by
    have hne' : c ≠ P := fun q => by
      have := m4.2.2
      rw [q] at hc
      omega
    exact ⟨by rw [d1]; exact hc, d4 c hne', d3 c⟩
  have hmoved : Moved n P C s.b.a.get D s.b.a.get := ⟨fun c => by rw [hal], fun c _ => d1 c, d4, d3, fun c _ r => by rw [hin]⟩
  have hleast : Least n C P := ⟨m4, fun c hc => by rw [m5]; exact m3 c hc⟩
  have hT := htaken s.garbage h0.2.1 h0.2.2.1
  have hcard := hT.card
  simp only [← hD] at hcard
  rw [hps, hwt] at hcard
  have hsP := h19 P m4
  have hrP := hl.range P m4
  have hone := hw.one m4
  have hpf := hp.small
  have htop := hp.topFree
  have htop0 := hp.top0
  rw [i32_of (by omega) (by omega), ok_bind, i32_of (by omega) (by omega), ok_bind]
  set needed := (if (C P).score < n - (s.k + (C P).thickness) then (C P).score else n - (s.k + (C P).thickness)) with hneeded
  have hneeded0 : 0 ≤ needed ∧ needed ≤ n := by
    rw [hneeded]
    split <;> omega
  have hfits := h0.1
  rw [i32_of (by omega) (by omega), ok_bind]
  by_cases hfull : aLen ≤ s.pfree + needed
  · rw [if_pos hfull]
    obtain ⟨b, pfree, rows, tag, g1, g2, g3, g4, g5, g6, g7⟩ := hT.collect (maxMark := maxMark) hn hmm (by simp only; have := h0.2.2.1; omega)
    simp only at g1 g3 g6 g7
    rw [g1, ok_bind]
    simp only
    rw [i32_of (by have := h0.2.1; omega) (by have := h0.2.2.1; omega), ok_bind, g2, ok_bind]
    refine ⟨_, _, rfl, g3.chosen ?_, by simp only; omega, hfrozen.trans g5, hleast, by simp only; rw [(g6 P).1]; exact d4', by simp only; rw [(g6 P).2]; exact d3 P, rfl, hmoved.trans g7⟩
    have := g3.card
    simp only at this ⊢
    omega
  · rw [if_neg hfull]
    refine ⟨_, _, rfl, hT.chosen ?_, by simp only; omega, hfrozen, hleast, d4', d3 P, rfl, hmoved⟩
    simp only [← hD]
    rw [hps]
    have : weight C (pivotSet n C s.b.a.get P) ≤ needed := by
      rw [hneeded]
      split <;> omega
    omega

/-- One pivot. -/
theorem orderPivot_of {m n n2 nnz aLen maxMark : Int} {aggressive : Bool} {s : OrderState} (h : OrderInv m n n2 nnz aLen s) (hk : s.k < n2) (hn : 2 * nnz + n ≤ aLen) (hmm : maxMark + n < 2 ^ 31) :
    ∃ s', orderPivot m n aLen maxMark aggressive s = .ok s' ∧ OrderInv m n n2 nnz aLen s' ∧ s.k < s'.k ∧ Frozen s.b.cols.get s'.b.cols.get ∧
      ∃ P, Least n s.b.cols.get P ∧ (s'.b.cols.get P).start = -1 ∧ (s'.b.cols.get P).score = s.k ∧ (s'.b.cols.get P).thickness = (s.b.cols.get P).thickness := by
  obtain ⟨s1, P, e1, h1, k1, f1, l1, l2, l3, -⟩ := choosePivot_of (maxMark := maxMark) h hk hn hmm
  obtain ⟨s2, e2, h2, k2, f2, l4, l5, l6⟩ := eliminate_of (aggressive := aggressive) hmm e1 h1
  exact ⟨s2, e2, h2, by omega, f1.trans f2, P, l1, l4, l5.trans l2, l6.trans l3⟩

theorem orderLoop_of {m n n2 nnz aLen maxMark : Int} {aggressive : Bool} (hn : 2 * nnz + n ≤ aLen) (hmm : maxMark + n < 2 ^ 31) (fuel : Nat) {s : OrderState} (h : OrderInv m n n2 nnz aLen s)
    (hf : n2 - s.k < fuel) : ∃ s', orderLoop m n aLen maxMark aggressive n2 fuel s = .ok s' ∧ OrderInv m n n2 nnz aLen s' ∧ n2 ≤ s'.k ∧
    Frozen s.b.cols.get s'.b.cols.get ∧
    (s.k < n2 → ∃ P, Least n s.b.cols.get P ∧ (s'.b.cols.get P).start = -1 ∧ (s'.b.cols.get P).score = s.k ∧ (s'.b.cols.get P).thickness = (s.b.cols.get P).thickness) := by
  induction fuel generalizing s with
  | zero =>
    exfalso
    have h1 := h.total
    have : 0 ≤ weight s.b.cols.get (alive n s.b.cols.get) := Finset.sum_nonneg fun d hd => by
      have := h.weights.thick d (mem_alive.1 hd)
      omega
    omega
  | succ fuel ih =>
    unfold orderLoop
    by_cases hk : s.k < n2
    · rw [if_pos hk]
      obtain ⟨s1, e1, h1, k1, f1, P, l1, l2, l3, l4⟩ := orderPivot_of (maxMark := maxMark) (aggressive := aggressive) h hk hn hmm
      rw [e1, ok_bind]
      obtain ⟨s2, e2, h2, k2, f2, -⟩ := ih h1 (by omega)
      obtain ⟨x1, x2, x3⟩ := f2 P l2
      exact ⟨s2, e2, h2, k2, f1.trans f2, fun _ => ⟨P, l1, x1, x2.trans l3, x3.trans l4⟩⟩
    · rw [if_neg hk]
      exact ⟨s, rfl, h, by omega, fun c hc => ⟨hc, rfl, rfl⟩, fun q => absurd q hk⟩

/-- At the end every column is ordered. -/
theorem OrderInv.finish {m n n2 nnz aLen : Int} {s : OrderState} (h : OrderInv m n n2 nnz aLen s) (hk : n2 ≤ s.k) : ∃ root, Spec.Grouped n s.b.cols.get root := by
  obtain ⟨root, hg⟩ := h.groups
  have htot := h.total
  have hthick := h.weights.thick
  have hnone : ∀ c, ¬ AliveCol n s.b.cols.get c := fun c hc => by
    have h1 : (s.b.cols.get c).thickness ≤ weight s.b.cols.get (alive n s.b.cols.get) := Finset.single_le_sum (f := fun d => (s.b.cols.get d).thickness) (fun d hd => by
      have := hthick d (mem_alive.1 hd)
      omega) (mem_alive.2 hc)
    have := hthick c hc
    omega
  have hnn : 0 ≤ weight s.b.cols.get (alive n s.b.cols.get) := Finset.sum_nonneg fun d hd => by
    have := hthick d (mem_alive.1 hd)
    omega
  have hk0 := h.k0
  exact ⟨root, grouped_of hg h.placed (by omega) (by omega) h.n2Le hnone⟩

end Fiksi.Amd
