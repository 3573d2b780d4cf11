import Verif.Proofs.AmdRemoved
/-!
# The forest before and after the ordering
-/
namespace Fiksi.Amd
open Classical

theorem loose_of_forest {K : Int → Prop} {Nb : Int → Int → Prop} (h : Spec.ForestOrdered K Nb) : Loose K Nb := by
  obtain ⟨pos, hinj, hone⟩ := h
  intro S hS hK
  obtain ⟨c, hc, hmin⟩ := Finset.exists_min_image S pos hS
  refine ⟨c, hc, Finset.card_le_one.2 fun d hd e he => ?_⟩
  rw [Finset.mem_filter] at hd he
  have hlt : ∀ d ∈ S, d ≠ c → pos c < pos d := fun d hd hne => lt_of_le_of_ne (hmin d hd) fun q => hne (hinj c d (hK c hc) (hK d hd) q).symm
  exact hone c d e (hK c hc) (hK d hd.1) (hK e he.1) hd.2.2 he.2.2 (hlt d hd.1 hd.2.1) (hlt e he.1 he.2.1)

section
variable {a p : Int → Int} {m n : Int} {DR DC : Int → Prop}

/-- A column with a row that is not ignored takes part, unless it is dense. -/
theorem ordered_of_entry {c r : Int} (c0 : 0 ≤ c) (cn : c < n) (he : Spec.Entry a p r c) (hd : ¬ DC (p (c + 1) - p c)) (hr : ¬ Spec.RowIgnored a p n DR DC r) :
    Spec.Ordered a p n DR DC c := by
  refine ⟨c0, cn, fun hm => ?_⟩
  unfold Spec.lastColumns at hm
  simp only [List.mem_append, List.mem_filter, decide_eq_true_eq] at hm
  rcases hm with ⟨_, _, _, q⟩ | ⟨_, _, q⟩ | ⟨_, q⟩
  · exact hr (q r he)
  · exact hd q
  · obtain ⟨i, i1, i2, _⟩ := he
    omega

theorem ordered_sparse {c : Int} (hc : Spec.Ordered a p n DR DC c) : ¬ DC (p (c + 1) - p c) := fun q => by
  obtain ⟨c0, cn, hm⟩ := hc
  unfold Spec.lastColumns at hm
  simp only [List.mem_append, List.mem_filter, decide_eq_true_eq, mem_span] at hm
  rw [not_or, not_or] at hm
  have hsp : 0 ≤ c ∧ c < 0 + (n.toNat : Int) := ⟨c0, by omega⟩
  by_cases h0 : p (c + 1) - p c = 0
  · exact hm.2.2 ⟨hsp, h0⟩
  · exact hm.2.1 ⟨hsp, h0, q⟩

/-- If two columns share at most one row, the initial score counts at most the neighbours. -/
theorem initialScore_le
    (hone : Spec.OneShared a p n DR DC) {c : Int} (hc : Spec.Ordered a p n DR DC c) {N : Finset Int}
    (hN : ∀ d, Spec.Ordered a p n DR DC d → d ≠ c → Spec.Joined a p n DR DC c d → d ∈ N) : Spec.initialScore a p m n DR DC c ≤ N.card := by
  unfold Spec.initialScore
  refine le_trans (min_le_right _ _) ?_
  have hterm : ∀ r ∈ (Finset.Ico 0 m).filter (fun r => Spec.Entry a p r c ∧ ¬ Spec.RowIgnored a p n DR DC r), Spec.rowCount a p n DC r - 1 =
      (((Finset.Ico 0 n).filter (fun d => Spec.Entry a p r d ∧ ¬ DC (p (d + 1) - p d))).erase c).card := fun r hr => by
    rw [Finset.mem_filter] at hr
    have hmc : c ∈ (Finset.Ico 0 n).filter (fun d => Spec.Entry a p r d ∧ ¬ DC (p (d + 1) - p d)) :=
      Finset.mem_filter.2 ⟨Finset.mem_Ico.2 ⟨hc.1, hc.2.1⟩, hr.2.1, ordered_sparse hc⟩
    unfold Spec.rowCount
    have := Finset.card_erase_add_one hmc
    omega
  rw [Finset.sum_congr rfl hterm]
  have hmem : ∀ r ∈ (Finset.Ico 0 m).filter (fun r => Spec.Entry a p r c ∧ ¬ Spec.RowIgnored a p n DR DC r), ∀ d,
      d ∈ ((Finset.Ico 0 n).filter (fun d => Spec.Entry a p r d ∧ ¬ DC (p (d + 1) - p d))).erase c → d ≠ c ∧ Spec.Entry a p r d ∧ Spec.Ordered a p n DR DC d := fun r hr d hd => by
    rw [Finset.mem_erase, Finset.mem_filter, Finset.mem_Ico] at hd
    exact ⟨hd.1, hd.2.2.1, ordered_of_entry hd.2.1.1 hd.2.1.2 hd.2.2.1 hd.2.2.2 (Finset.mem_filter.1 hr).2.2⟩
  refine sum_card_le (fun r hr r' hr' d h1 h2 => ?_) (fun r hr d hd => ?_)
  · obtain ⟨q1, q2, q3⟩ := hmem r hr d h1
    obtain ⟨_, q2', _⟩ := hmem r' hr' d h2
    have hr := (Finset.mem_filter.1 hr).2
    have hr' := (Finset.mem_filter.1 hr').2
    exact hone c d r r' hc q3 (Ne.symm q1) hr.2 hr'.2 hr.1 q2 hr'.1 q2'
  · obtain ⟨q1, q2, q3⟩ := hmem r hr d hd
    have hr := (Finset.mem_filter.1 hr).2
    exact hN d q3 q1 ⟨Ne.symm q1, r, hr.2, hr.1, q2⟩

/-- Before the first pivot. -/
theorem tree_start {C : Int → ColamdCol} {A : Int → Int} {n2 : Int}
    (hone : Spec.OneShared a p n DR DC)
    (hkind : ∀ c, 0 ≤ c → c < n → 0 ≤ (C c).start ∨ (C c).start = -1) (ht : Tail n C n2 (Spec.lastColumns a p n DR DC))
    (hkeep : ∀ c, Spec.Ordered a p n DR DC c ↔ AliveCol n C c) (hscore : ∀ c, AliveCol n C c → (C c).score = Spec.initialScore a p m n DR DC c)
    (hin : ∀ c, AliveCol n C c → ∀ r, InCol C A c r ↔ Spec.Entry a p r c ∧ ¬ Spec.RowIgnored a p n DR DC r) :
    Tree n n2 (Spec.Ordered a p n DR DC) (Spec.Joined a p n DR DC) (-1) 0 C A := by
  have hno : ∀ c, Spec.Ordered a p n DR DC c → (C c).start ≠ -1 := fun c hc q => by
    have := ((hkeep c).1 hc).2.2
    omega
  refine ⟨hkind, fun c hc => (hkeep c).2 hc, fun c hc => ⟨hc.1, hc.2.1⟩, fun c hc hs => absurd hs (hno c hc), fun x hx => ?_, fun c d hc hd hne => ?_,
    fun c d r r' hc hd hne h1 h2 h3 h4 => ?_, fun c hc _ => ?_, fun c d e hc hs => absurd hs (hno c hc)⟩
  · have hx' : n2 ≤ x ∧ x < n := hx.resolve_left (by omega)
    have hl : (x - n2).toNat < (Spec.lastColumns a p n DR DC).length := by
      have := ht.count
      omega
    have hr := ht.range _ (List.getElem_mem hl)
    refine ⟨_, hr.1, hr.2, (ht.dead _ hr.1 hr.2).2 (List.getElem_mem hl), ?_⟩
    rw [ht.place _ hl]
    omega
  · unfold Spec.Joined
    constructor
    · rintro ⟨r, h1, h2⟩
      rw [hin c hc] at h1
      rw [hin d hd] at h2
      exact ⟨hne, r, h1.2, h1.1, h2.1⟩
    · rintro ⟨_, r, h1, h2, h3⟩
      exact ⟨r, (hin c hc r).2 ⟨h2, h1⟩, (hin d hd r).2 ⟨h3, h1⟩⟩
  · rw [hin c hc] at h1 h3
    rw [hin d hd] at h2 h4
    exact hone c d r r' ((hkeep c).2 hc) ((hkeep d).2 hd) hne h1.2 h3.2 h1.1 h2.1 h3.1 h4.1
  · rw [hscore c hc]
    exact initialScore_le hone ((hkeep c).2 hc) fun d hd hne hj => Finset.mem_filter.2 ⟨mem_alive.2 ((hkeep d).1 hd), hne, hj⟩

end

theorem span_nodup (k : Nat) : (span 0 k).Nodup := by
  unfold span
  refine (List.nodup_map_iff ?_).2 List.nodup_range
  intro a b hab
  simp only at hab
  omega

/-- After the last pivot. -/
theorem tree_finish {n n2 k : Int} {K : Int → Prop} {Nb : Int → Int → Prop} {C : Int → ColamdCol} {A : Int → Int} {root : Int → Int} {l : List Int} (t : Tree n n2 K Nb (-1) k C A)
    (hg : Spec.Grouped n C root) (hl : l.Nodup) (hpos : ∀ c, 0 ≤ c → c < n → ∃ x, (C (root c)).score ≤ x ∧ x < (C (root c)).score + (C (root c)).thickness ∧ l[x.toNat]? = some c) :
    Spec.OneLater K Nb (fun c => l.idxOf c) := by
  have hs : ∀ c, 0 ≤ c → c < n → (C c).start = -1 := fun c c0 cn => by
    have h1 := t.kind c c0 cn
    have h2 := hg.kind c c0 cn
    omega
  have hth : ∀ c, 0 ≤ c → c < n → (C c).thickness = 1 := fun c c0 cn => by
    rw [hg.thickness c c0 cn (hs c c0 cn)]
    have : (Finset.Ico 0 n).filter (fun d => root d = c) = {c} := by
      ext d
      simp only [Finset.mem_filter, Finset.mem_Ico, Finset.mem_singleton]
      constructor
      · rintro ⟨q1, q2⟩
        rw [← q2, hg.self d q1.1 q1.2 (hs d q1.1 q1.2)]
      · rintro rfl
        exact ⟨⟨c0, cn⟩, hg.self d c0 cn (hs d c0 cn)⟩
    rw [this]
    simp
  have hidx : ∀ c, K c → (l.idxOf c : Int) = (C c).score := fun c hc => by
    obtain ⟨c0, cn⟩ := t.inRange c hc
    obtain ⟨x, x1, x2, x3⟩ := hpos c c0 cn
    rw [hg.self c c0 cn (hs c c0 cn)] at x1 x2
    rw [hth c c0 cn] at x2
    have h0 := (hg.order c c0 cn (hs c c0 cn)).1
    obtain ⟨hlt, he⟩ := List.getElem?_eq_some_iff.1 x3
    have := hl.idxOf_getElem x.toNat hlt
    rw [he] at this
    omega
  intro c d e hc hd he h1 h2 h3 h4
  simp only at h3 h4
  rw [hidx c hc, hidx d hd] at h3
  rw [hidx c hc, hidx e he] at h4
  exact t.done c d e hc (hs c (t.inRange c hc).1 (t.inRange c hc).2) hd he h1 h2 (Or.inr h3) (Or.inr h4)

end Fiksi.Amd
