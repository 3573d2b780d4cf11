import Verif.Proofs.AmdChoose
/-!
# Ordering columns that form a forest

As long as the pivot has at most one neighbour, no columns are merged, and the other columns keep their neighbours.
-/
namespace Fiksi.Amd
open Classical

/-- Without absorbed columns every group has one column. -/
theorem Groups.single {n : Int} {C : Int → ColamdCol} {root : Int → Int} (h : Groups n C root) (hk : ∀ c, 0 ≤ c → c < n → 0 ≤ (C c).start ∨ (C c).start = -1) {c : Int}
    (c0 : 0 ≤ c) (cn : c < n) : (C c).thickness = 1 := by
  have hne : ∀ c, 0 ≤ c → c < n → (C c).start ≠ -2 := fun c c0 cn => by
    rcases hk c c0 cn with q | q <;> omega
  rw [h.thickness c c0 cn (hne c c0 cn)]
  have : (Finset.Ico 0 n).filter (fun d => root d = c) = {c} := by
    ext d
    simp only [Finset.mem_filter, Finset.mem_Ico, Finset.mem_singleton]
    constructor
    · rintro ⟨q1, q2⟩
      rw [← q2, h.self d q1.1 q1.2 (hne d q1.1 q1.2)]
    · rintro rfl
      exact ⟨⟨c0, cn⟩, h.self d c0 cn (hne d c0 cn)⟩
  rw [this]
  simp

/-- Disjoint sets within another set. -/
theorem sum_card_le {S : Finset Int} {T : Int → Finset Int} {N : Finset Int} (hd : ∀ r ∈ S, ∀ r' ∈ S, ∀ d, d ∈ T r → d ∈ T r' → r = r') (hs : ∀ r ∈ S, T r ⊆ N) :
    (∑ r ∈ S, ((T r).card : Int)) ≤ N.card := by
  rw [← Nat.cast_sum, ← Finset.card_biUnion (fun r hr r' hr' hne => Finset.disjoint_left.2 fun d h1 h2 => hne (hd r hr r' hr' d h1 h2))]
  exact Nat.cast_le.2 (Finset.card_le_card (Finset.biUnion_subset.2 hs))

/-- `K` are the columns to order and `Nb` the neighbours among them. Columns in use that are neighbours share exactly one row; the ordered columns have at most
one later neighbour each. -/
structure Tree (n n2 : Int) (K : Int → Prop) (Nb : Int → Int → Prop) (P k : Int) (C : Int → ColamdCol) (A : Int → Int) : Prop where
  kind : ∀ c, 0 ≤ c → c < n → 0 ≤ (C c).start ∨ (C c).start = -1
  aliveK : ∀ c, AliveCol n C c → K c
  inRange : ∀ c, K c → 0 ≤ c ∧ c < n
  before : ∀ c, K c → (C c).start = -1 → (C c).score < k
  full : ∀ x, (0 ≤ x ∧ x < k) ∨ (n2 ≤ x ∧ x < n) → ∃ d, 0 ≤ d ∧ d < n ∧ (C d).start = -1 ∧ (C d).score = x
  share : ∀ c d, AliveCol n C c → AliveCol n C d → c ≠ d → ((∃ r, InCol C A c r ∧ InCol C A d r) ↔ Nb c d)
  one : ∀ c d r r', AliveCol n C c → AliveCol n C d → c ≠ d → InCol C A c r → InCol C A d r → InCol C A c r' → InCol C A d r' → r = r'
  score : ∀ c, AliveCol n C c → c ≠ P → (C c).score ≤ ((alive n C).filter (fun d => d ≠ c ∧ Nb c d)).card
  done : ∀ c d e, K c → (C c).start = -1 → K d → K e → Nb c d → Nb c e → (0 ≤ (C d).start ∨ (C c).score < (C d).score) → (0 ≤ (C e).start ∨ (C c).score < (C e).score) → d = e

variable {m n n2 top pfree tag k k1 k' degree' P pivotRow : Int} {R R' : Int → ColamdRow} {C C' : Int → ColamdCol} {A A' : Int → Int} {aggressive : Bool}
  {K : Int → Prop} {Nb : Int → Int → Prop}

/-- The choice of a pivot. -/
theorem Tree.moved (t : Tree n n2 K Nb (-1) k C A) (h : Moved n P C A C' A') (hP : AliveCol n C P) : Tree n n2 K Nb P k C' A' := by
  have hal : alive n C' = alive n C := by
    ext c
    rw [mem_alive, mem_alive, h.alive]
  have hneg : ∀ c, 0 ≤ c → c < n → ((C' c).start = -1 ↔ (C c).start = -1) := fun c c0 cn => by
    by_cases hc : AliveCol n C c
    · have q1 := hc.2.2
      have q2 := ((h.alive c).2 hc).2.2
      omega
    · rw [h.dead c hc]
  have hpos : ∀ c, 0 ≤ c → c < n → (0 ≤ (C' c).start ↔ 0 ≤ (C c).start) := fun c c0 cn => by
    have := h.alive c
    unfold AliveCol at this
    tauto
  have hne : ∀ c, (C c).start = -1 → c ≠ P := fun c hc q => by
    rw [q] at hc
    have := hP.2.2
    omega
  refine ⟨fun c c0 cn => ?_, fun c hc => t.aliveK c ((h.alive c).1 hc), t.inRange, fun c hc hs => ?_, fun x hx => ?_, fun c d hc hd hcd => ?_, fun c d r r' hc hd hcd => ?_, fun c hc hcP => ?_,
    fun c d e hc hs hd he h1 h2 h3 h4 => ?_⟩
  · rw [hneg c c0 cn, hpos c c0 cn]
    exact t.kind c c0 cn
  · obtain ⟨c0, cn⟩ := t.inRange c hc
    have hs' := (hneg c c0 cn).1 hs
    rw [h.score c (hne c hs')]
    exact t.before c hc hs'
  · obtain ⟨d, d0, dn, q1, q2⟩ := t.full x hx
    exact ⟨d, d0, dn, (hneg d d0 dn).2 q1, by rw [h.score d (hne d q1)]; exact q2⟩
  · rw [h.alive] at hc hd
    rw [← t.share c d hc hd hcd]
    exact exists_congr fun r => by rw [h.inCol c hc, h.inCol d hd]
  · rw [h.alive] at hc hd
    rw [h.inCol c hc, h.inCol d hd, h.inCol c hc, h.inCol d hd]
    exact t.one c d r r' hc hd hcd
  · rw [h.alive] at hc
    rw [h.score c hcP, hal]
    exact t.score c hc (by have := hc.1; omega)
  · obtain ⟨c0, cn⟩ := t.inRange c hc
    obtain ⟨d0, dn⟩ := t.inRange d hd
    obtain ⟨e0, en⟩ := t.inRange e he
    have hs' := (hneg c c0 cn).1 hs
    rw [h.score c (hne c hs')] at h3 h4
    have hl : ∀ d, 0 ≤ d → d < n → (0 ≤ (C' d).start ∨ (C c).score < (C' d).score) → (0 ≤ (C d).start ∨ (C c).score < (C d).score) := fun d d0 dn q => by
      rcases t.kind d d0 dn with q' | q'
      · exact Or.inl q'
      · rw [hpos d d0 dn, h.score d (hne d q')] at q
        exact q
    exact t.done c d e hc hs' hd he h1 h2 (hl d d0 dn h3) (hl e e0 en h4)

/-- The elimination of a pivot with at most one neighbour. -/
theorem Tree.step (hp : Pattern m n top pfree R C A) (hw : Weights m n tag R C A) (htag : 1 ≤ tag) (hP : AliveCol n C P)
    (g : Pivoted n n2 tag pfree k1 (differenced aggressive n tag R C A P) C A P pivotRow R' C' A' k' degree') (t : Tree n n2 K Nb P k C A) (hk : (C P).score = k)
    (hk1 : k1 = k + 1) (hQ1 : (pivotSet n C A P).card ≤ 1) (hone : ∀ c, AliveCol n C c → (C c).thickness = 1) (hsym : ∀ c d, Nb c d → Nb d c) (hirr : ∀ c, ¬ Nb c c) :
    Tree n n2 K Nb (-1) k' C' A' := by
  have huniq : ∀ c ∈ pivotSet n C A P, ∀ d ∈ pivotSet n C A P, c = d := fun c hc d hd => Finset.card_le_one.1 hQ1 c hc d hd
  have hwc : ∀ S : Finset Int, (∀ c ∈ S, AliveCol n C c) → weight C S = S.card := fun S hS => by
    unfold weight
    rw [Finset.sum_congr rfl fun c hc => hone c (hS c hc)]
    simp
  -- a column of the pivot row that keeps a row stays
  have hstay : ∀ c ∈ pivotSet n C A P, keptRows (differenced aggressive n tag R C A P) C A c ≠ ∅ → AliveCol n C' c := fun c hc hr => by
    have hs := g.sum (fun x => x = c) (fun x hx y hy _ => by rw [huniq x hx c hc, huniq y hy c hc])
    have hmem : c ∈ (alive n C).filter (fun d => d ≠ P ∧ (d ∈ pivotSet n C A P → keptRows (differenced aggressive n tag R C A P) C A d ≠ ∅)) :=
      Finset.mem_filter.2 ⟨mem_alive.2 (mem_pivotSet.1 hc).1, (mem_pivotSet.1 hc).2.1, fun _ => hr⟩
    by_contra hcon
    have z1 := hs.symm.trans (Finset.sum_eq_zero (fun d hd => if_neg fun q => hcon (by rw [← q]; exact mem_alive.1 hd)))
    have z2 := Finset.sum_eq_single c (fun d _ hne => if_neg hne) (fun q => absurd hmem q) |>.symm.trans z1
    rw [if_pos rfl, hone c (mem_pivotSet.1 hc).1] at z2
    omega
  have halive : ∀ c, AliveCol n C' c → AliveCol n C c ∧ c ≠ P := fun c hc => ⟨((g.alive_iff c).1 hc).1, ((g.alive_iff c).1 hc).2.1⟩
  have hkind : ∀ c, 0 ≤ c → c < n → 0 ≤ (C' c).start ∨ (C' c).start = -1 := fun c c0 cn => by
    by_cases hcP : c = P
    · rw [hcP]; exact Or.inr g.pivot
    by_cases hcQ : c ∈ pivotSet n C A P
    · by_cases hr : keptRows (differenced aggressive n tag R C A P) C A c = ∅
      · exact Or.inr (g.dead c hcQ hr)
      · exact Or.inl (hstay c hcQ hr).2.2
    · rw [g.other c hcQ hcP]
      exact t.kind c c0 cn
  obtain ⟨root', hroot'⟩ := g.groups
  have hone' : ∀ c, 0 ≤ c → c < n → (C' c).thickness = 1 := fun c c0 cn => hroot'.single hkind c0 cn
  have hfrozen : ∀ c, (C c).start = -1 → (C' c).start = -1 ∧ (C' c).score = (C c).score := fun c hc => by
    rw [g.other c (fun q => by have := (mem_pivotSet.1 q).1.2.2; omega) (fun q => by have := hP.2.2; rw [q] at hc; omega)]
    exact ⟨hc, rfl⟩
  have hPk : (C' P).start = -1 ∧ (C' P).score = k := ⟨g.pivot, by rw [g.pivotKeeps.1, hk]⟩
  -- the rows of two columns
  have hshare : ∀ c d r, AliveCol n C' c → AliveCol n C' d → c ≠ d → ((InCol C' A' c r ∧ InCol C' A' d r) ↔ (InCol C A c r ∧ InCol C A d r)) := by
    have half : ∀ c d r, AliveCol n C' c → AliveCol n C' d → c ∈ pivotSet n C A P → d ∉ pivotSet n C A P → ((InCol C' A' c r ∧ InCol C' A' d r) ↔ (InCol C A c r ∧ InCol C A d r)) := by
      intro c d r hc hd hcQ hdQ
      obtain ⟨d1, d2⟩ := halive d hd
      rw [(g.inCol_other hp d1 d2 hdQ).2, g.inCol_kept hcQ hc]
      constructor
      · rintro ⟨q1 | q1, q2⟩
        · refine absurd (mem_pivotSet.2 ⟨d1, d2, r, ?_, q2⟩) hdQ
          rw [q1]
          exact (g.rowPivot (g.degree_pos hw hcQ hc)).2
        · exact ⟨q1.1, q2⟩
      · rintro ⟨q1, q2⟩
        exact ⟨Or.inr ⟨q1, diff_other hw hp htag d1 hdQ d2 q2⟩, q2⟩
    intro c d r hc hd hne
    by_cases hcQ : c ∈ pivotSet n C A P
    · by_cases hdQ : d ∈ pivotSet n C A P
      · exact absurd (huniq c hcQ d hdQ) hne
      · exact half c d r hc hd hcQ hdQ
    · obtain ⟨c1, c2⟩ := halive c hc
      by_cases hdQ : d ∈ pivotSet n C A P
      · rw [and_comm, half d c r hd hc hdQ hcQ, and_comm]
      · obtain ⟨d1, d2⟩ := halive d hd
        rw [(g.inCol_other hp c1 c2 hcQ).2, (g.inCol_other hp d1 d2 hdQ).2]
  -- a neighbour of the pivot is in the pivot row
  have hnbP : ∀ d, AliveCol n C d → Nb P d → d ∈ pivotSet n C A P := fun d hd hnb => by
    have hne : d ≠ P := fun q => hirr P (q ▸ hnb)
    obtain ⟨r, r1, r2⟩ := (t.share P d hP hd (Ne.symm hne)).2 hnb
    exact mem_pivotSet.2 ⟨hd, hne, r, r1, r2⟩
  -- a neighbour outside the pivot row keeps its neighbour alive
  have hout : ∀ c d, AliveCol n C c → c ≠ P → c ∉ pivotSet n C A P → AliveCol n C d → d ≠ c → Nb c d → AliveCol n C' d := fun c d hc hcP hcQ hd hne hnb => by
    have hdP : d ≠ P := fun q => hcQ (hnbP c hc (hsym _ _ (q ▸ hnb)))
    by_cases hdQ : d ∈ pivotSet n C A P
    · obtain ⟨r, r1, r2⟩ := (t.share c d hc hd (Ne.symm hne)).2 hnb
      refine hstay d hdQ (Finset.nonempty_iff_ne_empty.1 ⟨r, mem_keptRows.2 ⟨r2, ?_⟩⟩)
      exact diff_other hw hp htag hc hcQ hcP r1
    · exact (g.alive_iff d).2 ⟨hd, hdP, fun q => absurd q hdQ⟩
  -- a column that died with the pivot has no other neighbour
  have hgone : ∀ c d, c ∈ pivotSet n C A P → keptRows (differenced aggressive n tag R C A P) C A c = ∅ → AliveCol n C d → Nb c d → d = P := fun c d hcQ hr hd hnb => by
    by_contra hdP
    have hc := (mem_pivotSet.1 hcQ).1
    have hne : c ≠ d := fun q => hirr c (by rw [← q] at hnb; exact hnb)
    have hdQ : d ∉ pivotSet n C A P := fun q => hne (huniq c hcQ d q)
    obtain ⟨r, r1, r2⟩ := (t.share c d hc hd hne).2 hnb
    have : r ∈ keptRows (differenced aggressive n tag R C A P) C A c := mem_keptRows.2 ⟨r1, diff_other hw hp htag hd hdQ hdP r2⟩
    rw [hr] at this
    simp at this
  have hkk : k1 ≤ k' := by
    rw [g.k, hwc _ (fun c hc => (mem_pivotSet.1 (Finset.mem_filter.1 hc).1).1)]
    omega
  -- where the columns that died with the pivot are
  have hnew : ∀ c ∈ pivotSet n C A P, keptRows (differenced aggressive n tag R C A P) C A c = ∅ → (C' c).start = -1 ∧ k < (C' c).score ∧ (C' c).score < k' := fun c hcQ hr => by
    have hc := (mem_pivotSet.1 hcQ).1
    have hcs := g.dead c hcQ hr
    have hc1 := hone' c hc.1 hc.2.1
    have hord : 0 ≤ c ∧ c < n ∧ (C' c).start = -1 := ⟨hc.1, hc.2.1, hcs⟩
    have hfree : ∀ d, 0 ≤ d → d < n → d ≠ c → (C' d).start = -1 → (C' d).score ≠ (C' c).score := fun d d0 dn hne hs => by
      have := g.placed.disjoint c d hord ⟨d0, dn, hs⟩ (Ne.symm hne)
      have := hone' d d0 dn
      omega
    have hold : ¬ ((0 ≤ (C' c).score ∧ (C' c).score < k) ∨ (n2 ≤ (C' c).score ∧ (C' c).score < n)) := fun q => by
      obtain ⟨d, d0, dn, q1, q2⟩ := t.full _ q
      obtain ⟨q3, q4⟩ := hfrozen d q1
      refine hfree d d0 dn (fun q => ?_) q3 (by rw [q4, q2])
      rw [q] at q1
      have := hc.2.2
      omega
    have hpk := hfree P hP.1 hP.2.1 (fun q => (mem_pivotSet.1 hcQ).2.1 q.symm) hPk.1
    rw [hPk.2] at hpk
    have hr := g.placed.range c hord
    refine ⟨hcs, ?_, ?_⟩
    · omega
    · omega
  -- the columns that are ordered now
  have hcase : ∀ c, K c → (C' c).start = -1 → (C c).start = -1 ∨ c = P ∨ (c ∈ pivotSet n C A P ∧ keptRows (differenced aggressive n tag R C A P) C A c = ∅) := fun c hc hs => by
    by_cases hcP : c = P
    · exact Or.inr (Or.inl hcP)
    by_cases hcQ : c ∈ pivotSet n C A P
    · refine Or.inr (Or.inr ⟨hcQ, ?_⟩)
      by_contra hr
      have := (hstay c hcQ hr).2.2
      omega
    · rw [g.other c hcQ hcP] at hs
      exact Or.inl hs
  refine ⟨hkind, fun c hc => t.aliveK c (halive c hc).1, t.inRange, fun c hc hs => ?_, fun x hx => ?_, fun c d hc hd hne => ?_, fun c d r r' hc hd hne h1 h2 h3 h4 => ?_, fun c hc _ => ?_,
    fun c d e hc hs hd he h1 h2 h3 h4 => ?_⟩
  · rcases hcase c hc hs with q | q | ⟨q1, q2⟩
    · have := t.before c hc q
      rw [(hfrozen c q).2]
      omega
    · rw [q, hPk.2]
      omega
    · exact (hnew c q1 q2).2.2
  · by_cases hx' : (0 ≤ x ∧ x < k) ∨ (n2 ≤ x ∧ x < n)
    · obtain ⟨d, d0, dn, q1, q2⟩ := t.full x hx'
      obtain ⟨q3, q4⟩ := hfrozen d q1
      exact ⟨d, d0, dn, q3, by rw [q4, q2]⟩
    · by_cases hxk : x = k
      · exact ⟨P, hP.1, hP.2.1, hPk.1, by rw [hPk.2, hxk]⟩
      · have hlt : x < k' ∧ k1 ≤ x := by omega
        have hgk := g.k
        rw [hwc _ (fun c hc => (mem_pivotSet.1 (Finset.mem_filter.1 hc).1).1)] at hgk
        have hcard : 0 < ((pivotSet n C A P).filter (fun d => keptRows (differenced aggressive n tag R C A P) C A d = ∅)).card := by omega
        have hcard1 : ((pivotSet n C A P).filter (fun d => keptRows (differenced aggressive n tag R C A P) C A d = ∅)).card ≤ 1 := le_trans (Finset.card_filter_le _ _) hQ1
        obtain ⟨c, hc⟩ := Finset.card_pos.1 hcard
        rw [Finset.mem_filter] at hc
        have hcal := (mem_pivotSet.1 hc.1).1
        obtain ⟨q1, q2, q3⟩ := hnew c hc.1 hc.2
        exact ⟨c, hcal.1, hcal.2.1, q1, by omega⟩
  · rw [← t.share c d (halive c hc).1 (halive d hd).1 hne]
    exact exists_congr fun r => hshare c d r hc hd hne
  · obtain ⟨q1, q2⟩ := (hshare c d r hc hd hne).1 ⟨h1, h2⟩
    obtain ⟨q3, q4⟩ := (hshare c d r' hc hd hne).1 ⟨h3, h4⟩
    exact t.one c d r r' (halive c hc).1 (halive d hd).1 hne q1 q2 q3 q4
  · obtain ⟨c1, c2⟩ := halive c hc
    by_cases hcQ : c ∈ pivotSet n C A P
    · obtain ⟨_, _, h3⟩ := (g.alive_iff c).1 hc
      obtain ⟨h4, h5⟩ := h3 hcQ
      obtain ⟨_, _, hsc⟩ := g.kept c hcQ h4 h5
      have hdeg : degree' ≤ 1 := by
        rw [g.degree, hwc _ (fun d hd => (mem_pivotSet.1 (Finset.mem_filter.1 hd).1).1)]
        have := Finset.card_filter_le (pivotSet n C A P) (fun d => keptRows (differenced aggressive n tag R C A P) C A d ≠ ∅)
        omega
      have hth := hone' c hc.1 hc.2.1
      have hks : keptScore n tag (differenced aggressive n tag R C A P) C A c ≤ ((alive n C').filter (fun d => d ≠ c ∧ Nb c d)).card := by
        unfold keptScore
        refine le_trans (min_le_right _ _) ?_
        have hsum : ∑ r ∈ keptRows (differenced aggressive n tag R C A P) C A c, ((differenced aggressive n tag R C A P r).mark - tag) =
            ∑ r ∈ keptRows (differenced aggressive n tag R C A P) C A c, ((outside n C A P r).card : Int) := Finset.sum_congr rfl fun r hr => by
          obtain ⟨r1, r2⟩ := mem_keptRows.1 hr
          rw [diff_value hw hp hcQ r1 r2, hwc (outside n C A P r) (fun d hd => (mem_colsOf.1 (Finset.mem_filter.1 hd).1).1)]
        rw [hsum]
        have hmem : ∀ r ∈ keptRows (differenced aggressive n tag R C A P) C A c, ∀ d ∈ outside n C A P r, AliveCol n C d ∧ d ≠ c ∧ d ∉ pivotSet n C A P ∧ InCol C A d r ∧ d ≠ P := fun r hr d hd => by
          unfold outside at hd
          rw [Finset.mem_filter, mem_colsOf] at hd
          obtain ⟨⟨q1, q2⟩, q3⟩ := hd
          refine ⟨q1, fun q => q3 (q ▸ hcQ), q3, q2, fun q => ?_⟩
          rw [q] at q2
          exact (diff_alive (mem_keptRows.1 hr).2).1 q2
        refine sum_card_le (fun r hr r' hr' d h1 h2 => ?_) (fun r hr d hd => ?_)
        · obtain ⟨q1, q2, _, q4, _⟩ := hmem r hr d h1
          obtain ⟨_, _, _, q4', _⟩ := hmem r' hr' d h2
          exact t.one c d r r' c1 q1 (Ne.symm q2) (mem_keptRows.1 hr).1 q4 (mem_keptRows.1 hr').1 q4'
        · obtain ⟨q1, q2, q3, q4, q5⟩ := hmem r hr d hd
          refine Finset.mem_filter.2 ⟨mem_alive.2 ((g.alive_iff d).2 ⟨q1, q5, fun q => absurd q q3⟩), q2, ?_⟩
          exact (t.share c d c1 q1 (Ne.symm q2)).1 ⟨r, (mem_keptRows.1 hr).1, q4⟩
      omega
    · rw [g.other c hcQ c2]
      refine le_trans (t.score c c1 c2) (Nat.cast_le.2 (Finset.card_le_card fun d hd => ?_))
      rw [Finset.mem_filter, mem_alive] at hd ⊢
      exact ⟨hout c d c1 c2 hcQ hd.1 hd.2.1 hd.2.2, hd.2⟩
  · -- later columns
    have hlater : ∀ c d, K c → K d → (C' c).start = -1 → (C c).start = -1 → (0 ≤ (C' d).start ∨ (C' c).score < (C' d).score) → (0 ≤ (C d).start ∨ (C c).score < (C d).score) := fun c d hc hd hs hs' q => by
      obtain ⟨d0, dn⟩ := t.inRange d hd
      rcases t.kind d d0 dn with q' | q'
      · exact Or.inl q'
      · obtain ⟨x1, x2⟩ := hfrozen d q'
        rw [x1, x2, (hfrozen c hs').2] at q
        omega
    have hfresh : ∀ c d, K c → K d → k ≤ (C' c).score → (0 ≤ (C' d).start ∨ (C' c).score < (C' d).score) → AliveCol n C d := fun c d hc hd hs q => by
      obtain ⟨d0, dn⟩ := t.inRange d hd
      rcases t.kind d d0 dn with q' | q'
      · exact ⟨d0, dn, q'⟩
      · obtain ⟨x1, x2⟩ := hfrozen d q'
        have := t.before d hd q'
        rw [x1, x2] at q
        omega
    rcases hcase c hc hs with q | q | ⟨q1, q2⟩
    · exact t.done c d e hc q hd he h1 h2 (hlater c d hc hd hs q h3) (hlater c e hc he hs q h4)
    · subst q
      have x1 := hnbP d (hfresh c d hc hd (by rw [hPk.2]) h3) h1
      have x2 := hnbP e (hfresh c e hc he (by rw [hPk.2]) h4) h2
      exact huniq d x1 e x2
    · obtain ⟨_, y, _⟩ := hnew c q1 q2
      rw [hgone c d q1 q2 (hfresh c d hc hd (by omega) h3) h1, hgone c e q1 q2 (hfresh c e hc he (by omega) h4) h2]

/-- Every set of columns to order has a member with at most one neighbour in the set. -/
def Loose (K : Int → Prop) (Nb : Int → Int → Prop) : Prop := ∀ S : Finset Int, S.Nonempty → (∀ c ∈ S, K c) → ∃ c ∈ S, (S.filter (fun d => d ≠ c ∧ Nb c d)).card ≤ 1

/-- One pivot. -/
theorem orderPivot_tree {nnz aLen maxMark : Int} {s s' : OrderState} (h : OrderInv m n n2 nnz aLen s) (hk : s.k < n2) (hn : 2 * nnz + n ≤ aLen) (hmm : maxMark + n < 2 ^ 31)
    (hsym : ∀ c d, Nb c d → Nb d c) (hirr : ∀ c, ¬ Nb c c) (hloose : Loose K Nb) (t : Tree n n2 K Nb (-1) s.k s.b.cols.get s.b.a.get)
    (he : orderPivot m n aLen maxMark aggressive s = .ok s') : Tree n n2 K Nb (-1) s'.k s'.b.cols.get s'.b.a.get := by
  obtain ⟨s1, P, e1, h1, -, -, ⟨hP, hleast⟩, l2, l3, l4, hmv⟩ := choosePivot_of (maxMark := maxMark) h hk hn hmm
  obtain ⟨pivotRow, degree', s2, e2, g, -⟩ := pivoted_of (aggressive := aggressive) hmm e1 h1
  rw [he] at e2
  cases e2
  obtain ⟨root, hroot⟩ := h.groups
  have hone : ∀ c, 0 ≤ c → c < n → (s.b.cols.get c).thickness = 1 := fun c c0 cn => hroot.single t.kind c0 cn
  have hone1 : ∀ c, AliveCol n s1.b.cols.get c → (s1.b.cols.get c).thickness = 1 := fun c hc => by
    rw [hmv.thickness]
    exact hone c hc.1 hc.2.1
  -- the pivot has at most one neighbour
  obtain ⟨c, hc, hcard⟩ := hloose (alive n s.b.cols.get) ⟨P, mem_alive.2 hP⟩ (fun c hc => t.aliveK c (mem_alive.1 hc))
  rw [mem_alive] at hc
  have hPs : (s.b.cols.get P).score ≤ 1 := by
    have := hleast c hc
    have := t.score c hc (by have := hc.1; omega)
    omega
  have hQ : ((pivotSet n s1.b.cols.get s1.b.a.get P).card : Int) ≤ 1 := by
    have he : pivotSet n s1.b.cols.get s1.b.a.get P = pivotSet n s.b.cols.get s.b.a.get P := by
      ext d
      rw [mem_pivotSet, mem_pivotSet, hmv.alive]
      refine and_congr_right fun hd => and_congr_right fun _ => exists_congr fun r => ?_
      rw [hmv.inCol P hP, hmv.inCol d hd]
    rw [he]
    have h2 := h.score P hP
    have h3 := card_le_weight (n := n) (C := s.b.cols.get) (S := pivotSet n s.b.cols.get s.b.a.get P) fun d hd => h.weights.thick d (mem_pivotSet.1 hd).1
    omega
  obtain ⟨top, hp, -⟩ := h1.pattern
  exact (t.moved hmv hP).step hp h1.weights h1.tag h1.pivot g l2 (by rw [l4, hone P hP.1 hP.2.1]) (by omega) hone1 hsym hirr

/-- All pivots. -/
theorem orderLoop_tree {nnz aLen maxMark : Int} (hn : 2 * nnz + n ≤ aLen) (hmm : maxMark + n < 2 ^ 31) (hsym : ∀ c d, Nb c d → Nb d c) (hirr : ∀ c, ¬ Nb c c) (hloose : Loose K Nb)
    (fuel : Nat) {s s' : OrderState} (h : OrderInv m n n2 nnz aLen s) (t : Tree n n2 K Nb (-1) s.k s.b.cols.get s.b.a.get)
    (he : orderLoop m n aLen maxMark aggressive n2 fuel s = .ok s') : Tree n n2 K Nb (-1) s'.k s'.b.cols.get s'.b.a.get := by
  induction fuel generalizing s with
  | zero => cases he
  | succ fuel ih =>
    unfold orderLoop at he
    by_cases hk : s.k < n2
    · rw [if_pos hk] at he
      obtain ⟨s1, e1, h1, -⟩ := orderPivot_of (maxMark := maxMark) (aggressive := aggressive) h hk hn hmm
      rw [e1, ok_bind] at he
      exact ih h1 (orderPivot_tree h hk hn hmm hsym hirr hloose t e1) he
    · rw [if_neg hk] at he
      cases he
      exact t

end Fiksi.Amd
