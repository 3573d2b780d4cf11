import Verif.Proofs.AmdBase
import Verif.Spec.Colamd
/-!
# Absorbed columns and the positions of ordered columns
-/
namespace Fiksi.Amd
open Classical

/-- Columns are split into groups: every column that was absorbed (`start` is `-2`) leads to the principal column `root c`. -/
structure Groups (n : Int) (C : Int → ColamdCol) (root : Int → Int) : Prop where
  kind : ∀ c, 0 ≤ c → c < n → 0 ≤ (C c).start ∨ (C c).start = -1 ∨ (C c).start = -2
  self : ∀ c, 0 ≤ c → c < n → (C c).start ≠ -2 → root c = c
  principal : ∀ c, 0 ≤ c → c < n → 0 ≤ root c ∧ root c < n ∧ (C (root c)).start ≠ -2
  unordered : ∀ c, 0 ≤ c → c < n → (C c).start = -2 → (C c).score = -1
  parent : ∀ c, 0 ≤ c → c < n → (C c).start = -2 → 0 ≤ (C c).thickness ∧ (C c).thickness < n ∧ root (C c).thickness = root c
  acyclic : ∃ rank : Int → Nat, ∀ c, 0 ≤ c → c < n → (C c).start = -2 → rank (C c).thickness < rank c
  thickness : ∀ c, 0 ≤ c → c < n → (C c).start ≠ -2 → (C c).thickness = ((Finset.Ico 0 n).filter (fun d => root d = c)).card

namespace Groups
variable {n : Int} {C C' : Int → ColamdCol} {root : Int → Int}

theorem pos (h : Groups n C root) {c : Int} (h0 : 0 ≤ c) (h1 : c < n) (hs : (C c).start ≠ -2) : 1 ≤ (C c).thickness := by
  rw [h.thickness c h0 h1 hs]
  have : 0 < ((Finset.Ico 0 n).filter (fun d => root d = c)).card :=
    Finset.card_pos.2 ⟨c, by simp only [Finset.mem_filter, Finset.mem_Ico]; exact ⟨⟨h0, h1⟩, h.self c h0 h1 hs⟩⟩
  omega

theorem le (h : Groups n C root) {c : Int} (h0 : 0 ≤ c) (h1 : c < n) (hs : (C c).start ≠ -2) : (C c).thickness ≤ n := by
  rw [h.thickness c h0 h1 hs]
  have := Finset.card_filter_le (Finset.Ico 0 n) (fun d => root d = c)
  rw [Int.card_Ico] at this
  omega

theorem congr (h : Groups n C root) (hk : ∀ c, 0 ≤ c → c < n → 0 ≤ (C' c).start ∨ (C' c).start = -1 ∨ (C' c).start = -2)
    (hs : ∀ c, 0 ≤ c → c < n → ((C' c).start = -2 ↔ (C c).start = -2)) (ht : ∀ c, 0 ≤ c → c < n → (C' c).thickness = (C c).thickness)
    (ho : ∀ c, 0 ≤ c → c < n → (C c).start = -2 → (C' c).score = (C c).score) : Groups n C' root := by
  obtain ⟨h1, h2, h3, h4, h5, ⟨rank, h6⟩, h7⟩ := h
  refine ⟨hk, fun c c0 c1 hc => h2 c c0 c1 fun he => hc ((hs c c0 c1).2 he), fun c c0 c1 => ?_, fun c c0 c1 hc => ?_, fun c c0 c1 hc => ?_, ⟨rank, fun c c0 c1 hc => ?_⟩,
    fun c c0 c1 hc => ?_⟩
  · obtain ⟨q1, q2, q3⟩ := h3 c c0 c1
    exact ⟨q1, q2, fun he => q3 ((hs _ q1 q2).1 he)⟩
  · have := (hs c c0 c1).1 hc
    rw [ho c c0 c1 this]
    exact h4 c c0 c1 this
  · rw [ht c c0 c1]
    exact h5 c c0 c1 ((hs c c0 c1).1 hc)
  · rw [ht c c0 c1]
    exact h6 c c0 c1 ((hs c c0 c1).1 hc)
  · rw [ht c c0 c1]
    exact h7 c c0 c1 fun he => hc ((hs c c0 c1).2 he)

/-- Column `c` is absorbed by column `s`. -/
theorem absorb (h : Groups n C root) {c s : Int} (hc : AliveCol n C c) (hs : AliveCol n C s) (hne : c ≠ s)
    (h1 : C' c = { C c with thickness := s, start := -2, score := -1, next := (C' c).next, prev := (C' c).prev })
    (h2 : (C' s).start = (C s).start ∧ (C' s).score = (C s).score ∧ (C' s).thickness = (C s).thickness + (C c).thickness)
    (h3 : ∀ d, d ≠ c → d ≠ s → (C' d).start = (C d).start ∧ (C' d).score = (C d).score ∧ (C' d).thickness = (C d).thickness) :
    Groups n C' (fun d => if root d = c then s else root d) := by
  obtain ⟨g1, g2, g3, g4, g5, ⟨rank, g6⟩, g7⟩ := h
  obtain ⟨c0, cn, cs⟩ := hc
  obtain ⟨s0, sn, ss⟩ := hs
  have hrc : root c = c := g2 c c0 cn (by omega)
  have hrs : root s = s := g2 s s0 sn (by omega)
  have hstart : ∀ d, d ≠ c → (C' d).start = (C d).start := fun d hd => by
    rcases eq_or_ne d s with rfl | hds
    · exact h2.1
    · exact (h3 d hd hds).1
  have hthick : ∀ d, d ≠ c → d ≠ s → (C' d).thickness = (C d).thickness := fun d hd hds => (h3 d hd hds).2.2
  have hscore : ∀ d, d ≠ c → (C' d).score = (C d).score := fun d hd => by
    rcases eq_or_ne d s with rfl | hds
    · exact h2.2.1
    · exact (h3 d hd hds).2.1
  have hcs : (C' c).start = -2 := by rw [h1]
  have hct : (C' c).thickness = s := by rw [h1]
  have hco : (C' c).score = -1 := by rw [h1]
  refine ⟨fun d d0 dn => ?_, fun d d0 dn hd => ?_, fun d d0 dn => ?_, fun d d0 dn hd => ?_, fun d d0 dn hd => ?_,
    ⟨fun d => if root d = c then rank d + rank s + 1 else rank d, fun d d0 dn hd => ?_⟩, fun d d0 dn hd => ?_⟩
  · rcases eq_or_ne d c with rfl | hdc
    · rw [hcs]; simp
    · rw [hstart d hdc]; exact g1 d d0 dn
  · have hdc : d ≠ c := fun he => hd (he ▸ hcs)
    rw [hstart d hdc] at hd
    have := g2 d d0 dn hd
    simp only [this, hdc, if_false]
  · obtain ⟨q1, q2, q3⟩ := g3 d d0 dn
    by_cases hr : root d = c
    · simp only [hr, if_true]
      refine ⟨s0, sn, ?_⟩
      rw [h2.1]; omega
    · simp only [hr, if_false]
      refine ⟨q1, q2, ?_⟩
      rw [hstart _ hr]; exact q3
  · rcases eq_or_ne d c with rfl | hdc
    · exact hco
    · rw [hscore d hdc]
      rw [hstart d hdc] at hd
      exact g4 d d0 dn hd
  · rcases eq_or_ne d c with rfl | hdc
    · rw [hct]
      refine ⟨s0, sn, ?_⟩
      simp [hrc, hrs]
    · rw [hstart d hdc] at hd
      have hds : d ≠ s := fun he => by rw [he] at hd; omega
      rw [hthick d hdc hds]
      obtain ⟨q1, q2, q3⟩ := g5 d d0 dn hd
      exact ⟨q1, q2, by simp only [q3]⟩
  · rcases eq_or_ne d c with rfl | hdc
    · rw [hct]
      simp only [hrc, hrs, if_true, hne.symm, if_false]
      omega
    · rw [hstart d hdc] at hd
      have hds : d ≠ s := fun he => by rw [he] at hd; omega
      rw [hthick d hdc hds]
      obtain ⟨q1, q2, q3⟩ := g5 d d0 dn hd
      have := g6 d d0 dn hd
      simp only [q3]
      by_cases hr : root d = c <;> simp only [hr, if_true, if_false] <;> omega
  · have hdc : d ≠ c := fun he => hd (he ▸ hcs)
    rw [hstart d hdc] at hd
    rcases eq_or_ne d s with rfl | hds
    · rw [h2.2.2, g7 d d0 dn hd, g7 c c0 cn (by omega), ← Nat.cast_add, ← Finset.card_union_of_disjoint]
      · congr 2
        ext x
        simp only [Finset.mem_union, Finset.mem_filter, Finset.mem_Ico]
        by_cases hx : root x = c
        · simp only [hx, if_true]; tauto
        · simp only [hx, if_false]; tauto
      · rw [Finset.disjoint_left]
        intro x hx hx'
        simp only [Finset.mem_filter] at hx hx'
        exact hne (by rw [← hx'.2, hx.2])
    · rw [hthick d hdc hds, g7 d d0 dn hd]
      congr 2
      ext x
      simp only [Finset.mem_filter]
      refine and_congr_right fun _ => ?_
      by_cases hx : root x = c
      · simp only [hx, if_true]
        exact ⟨fun he => absurd he.symm hdc, fun he => absurd he.symm hds⟩
      · simp only [hx, if_false]

end Groups

/-- The ordered columns have disjoint ranges of positions, before `k` or from `n2` on. -/
structure Placed (n k n2 : Int) (ordered : Int → Prop) (C : Int → ColamdCol) : Prop where
  range : ∀ c, ordered c → (0 ≤ (C c).score ∧ (C c).score + (C c).thickness ≤ k) ∨ (n2 ≤ (C c).score ∧ (C c).score + (C c).thickness ≤ n)
  disjoint : ∀ c d, ordered c → ordered d → c ≠ d →
    (C c).score + (C c).thickness ≤ (C d).score ∨ (C d).score + (C d).thickness ≤ (C c).score

namespace Placed
variable {n k k' n2 : Int} {ordered ordered' : Int → Prop} {C C' : Int → ColamdCol}

theorem congr (h : Placed n k n2 ordered C) (ho : ∀ c, ordered' c → ordered c)
    (hc : ∀ c, ordered' c → (C' c).score = (C c).score ∧ (C' c).thickness = (C c).thickness) : Placed n k n2 ordered' C' := by
  refine ⟨fun c hc' => ?_, fun c d hc' hd hne => ?_⟩
  · rw [(hc c hc').1, (hc c hc').2]
    exact h.range c (ho c hc')
  · rw [(hc c hc').1, (hc c hc').2, (hc d hd).1, (hc d hd).2]
    exact h.disjoint c d (ho c hc') (ho d hd) hne

/-- Another column is placed at `k`. -/
theorem push (h : Placed n k n2 ordered C) {c : Int} (hk0 : 0 ≤ k) (hk : k' = k + (C' c).thickness) (ht : 0 ≤ (C' c).thickness) (hn : k' ≤ n2)
    (hsc : (C' c).score = k) (ho : ∀ d, ordered' d → ordered d ∨ d = c)
    (hc : ∀ d, ordered' d → d ≠ c → (C' d).score = (C d).score ∧ (C' d).thickness = (C d).thickness) : Placed n k' n2 ordered' C' := by
  have hr : ∀ d, ordered' d → d ≠ c → (0 ≤ (C' d).score ∧ (C' d).score + (C' d).thickness ≤ k) ∨ (n2 ≤ (C' d).score ∧ (C' d).score + (C' d).thickness ≤ n) := by
    intro d hd hne
    rw [(hc d hd hne).1, (hc d hd hne).2]
    exact h.range d ((ho d hd).resolve_right hne)
  refine ⟨fun d hd => ?_, fun d e hd he hne => ?_⟩
  · rcases eq_or_ne d c with rfl | hne
    · left
      omega
    · rcases hr d hd hne with q | q
      · left; omega
      · right; exact q
  · rcases eq_or_ne d c with rfl | hdc
    · rcases hr e he hne.symm with q | q
      · right; omega
      · left; omega
    · rcases eq_or_ne e c with rfl | hec
      · rcases hr d hd hdc with q | q
        · left; omega
        · right; omega
      · rw [(hc d hd hdc).1, (hc d hd hdc).2, (hc e he hec).1, (hc e he hec).2]
        exact h.disjoint d e ((ho d hd).resolve_right hdc) ((ho e he).resolve_right hec) hne

end Placed

/-- All columns have been ordered. -/
theorem grouped_of {n k n2 : Int} {C : Int → ColamdCol} {root : Int → Int} (hg : Groups n C root)
    (hp : Placed n k n2 (fun c => 0 ≤ c ∧ c < n ∧ (C c).start = -1) C) (hk : k = n2) (hk0 : 0 ≤ n2) (hn2 : n2 ≤ n) (hnone : ∀ c, ¬ AliveCol n C c) :
    Spec.Grouped n C root := by
  have hkind : ∀ c, 0 ≤ c → c < n → (C c).start = -1 ∨ (C c).start = -2 := fun c c0 cn => by
    rcases hg.kind c c0 cn with q | q
    · exact absurd ⟨c0, cn, q⟩ (hnone c)
    · exact q
  refine ⟨hkind, fun c c0 cn hc => hg.self c c0 cn (by omega), fun c c0 cn => ?_, hg.unordered, hg.parent, hg.acyclic, fun c c0 cn hc => hg.thickness c c0 cn (by omega),
    fun c c0 cn hc => ?_, fun c d c0 cn d0 dn hc hd hne => hp.disjoint c d ⟨c0, cn, hc⟩ ⟨d0, dn, hd⟩ hne⟩
  · obtain ⟨q1, q2, q3⟩ := hg.principal c c0 cn
    exact ⟨q1, q2, (hkind _ q1 q2).resolve_right q3⟩
  · have ht := hg.pos c0 cn (by omega)
    rcases hp.range c ⟨c0, cn, hc⟩ with q | q <;> omega

end Fiksi.Amd
