import Verif.Model.ColamdOrder
import Verif.Spec.Colamd
import Verif.Proofs.Memory
import Mathlib.Data.List.Perm.Subperm
import Mathlib.Tactic.Ring
/-! # `order_children` -/
namespace Fiksi
open Spec

variable {n : Int} {cols : Mem ColamdCol} {root : Int → Int}

/-- The absorbed columns below `x` in the group of `r`. -/
def absorbedBelow (cols : Mem ColamdCol) (root : Int → Int) (r x : Int) : Finset Int :=
  (Finset.Ico 0 x).filter (fun e => (cols.get e).start = -2 ∧ root e = r)

theorem Ico_succ (x : Int) (h : 0 ≤ x) : Finset.Ico 0 (x + 1) = insert x (Finset.Ico 0 x) := by
  ext e
  simp only [Finset.mem_Ico, Finset.mem_insert]
  omega

theorem absorbedBelow_succ (r x : Int) (h : 0 ≤ x) :
    (absorbedBelow cols root r (x + 1)).card =
      (absorbedBelow cols root r x).card + if (cols.get x).start = -2 ∧ root x = r then 1 else 0 := by
  unfold absorbedBelow
  rw [Ico_succ x h, Finset.filter_insert]
  split
  · rw [Finset.card_insert_of_notMem (by simp)]
  · rfl

theorem absorbedBelow_mono (r : Int) {x y : Int} (h : x ≤ y) : (absorbedBelow cols root r x).card ≤ (absorbedBelow cols root r y).card := by
  refine Finset.card_le_card (Finset.filter_subset_filter _ fun e he => ?_)
  simp only [Finset.mem_Ico] at he ⊢
  omega

/-- The size of a group is the number of its absorbed columns and one. -/
theorem Spec.Grouped.card (h : Grouped n cols.get root) {r : Int} (h0 : 0 ≤ r) (h1 : r < n) (hr : (cols.get r).start = -1) :
    (cols.get r).thickness = (absorbedBelow cols root r n).card + 1 := by
  rw [h.thickness r h0 h1 hr]
  have : (Finset.Ico 0 n).filter (fun d => root d = r) = insert r (absorbedBelow cols root r n) := by
    ext e
    simp only [absorbedBelow, Finset.mem_filter, Finset.mem_Ico, Finset.mem_insert]
    constructor
    · rintro ⟨⟨e0, e1⟩, he⟩
      rcases h.kind e e0 e1 with hk | hk
      · left; rw [← h.self e e0 e1 hk, he]
      · right; exact ⟨⟨e0, e1⟩, hk, he⟩
    · rintro (rfl | ⟨he, _, he'⟩)
      · exact ⟨⟨h0, h1⟩, h.self e h0 h1 hr⟩
      · exact ⟨he, he'⟩
  rw [this, Finset.card_insert_of_notMem]
  · push_cast; rfl
  · simp [absorbedBelow, hr]

/-- The final position of a column. -/
def finalPosition (n : Int) (cols : Mem ColamdCol) (root : Int → Int) (c : Int) : Int :=
  (cols.get (root c)).score + (absorbedBelow cols root (root c) (if (cols.get c).start = -2 then c else n)).card

theorem Spec.Grouped.position (h : Grouped n cols.get root) {c : Int} (h0 : 0 ≤ c) (h1 : c < n) :
    (cols.get (root c)).score ≤ finalPosition n cols root c ∧
      finalPosition n cols root c < (cols.get (root c)).score + (cols.get (root c)).thickness := by
  obtain ⟨r0, r1, r2⟩ := h.principal c h0 h1
  have hcard := h.card r0 r1 r2
  have : (absorbedBelow cols root (root c) (if (cols.get c).start = -2 then c else n)).card ≤ (absorbedBelow cols root (root c) n).card := by
    apply absorbedBelow_mono
    split
    · omega
    · omega
  unfold finalPosition
  omega

theorem Spec.Grouped.position_injective (h : Grouped n cols.get root) {c d : Int} (c0 : 0 ≤ c) (c1 : c < n) (d0 : 0 ≤ d) (d1 : d < n)
    (he : finalPosition n cols root c = finalPosition n cols root d) : c = d := by
  have pc := h.position c0 c1
  have pd := h.position d0 d1
  obtain ⟨rc0, rc1, rc2⟩ := h.principal c c0 c1
  obtain ⟨rd0, rd1, rd2⟩ := h.principal d d0 d1
  have hr : root c = root d := by
    by_contra hne
    rcases h.disjoint _ _ rc0 rc1 rd0 rd1 rc2 rd2 hne with h' | h' <;> omega
  have key : ∀ x y : Int, 0 ≤ x → x < y → y ≤ n → (cols.get x).start = -2 → ∀ r, root x = r →
      (absorbedBelow cols root r x).card < (absorbedBelow cols root r y).card := by
    intro x y x0 xy yn hx r hxr
    have h1 := absorbedBelow_succ (cols := cols) (root := root) r x x0
    rw [if_pos ⟨hx, hxr⟩] at h1
    have h2 := absorbedBelow_mono (cols := cols) (root := root) r (show x + 1 ≤ y by omega)
    omega
  unfold finalPosition at he
  rw [← hr] at he
  have he : (absorbedBelow cols root (root c) (if (cols.get c).start = -2 then c else n)).card =
      (absorbedBelow cols root (root c) (if (cols.get d).start = -2 then d else n)).card := by omega
  rcases h.kind c c0 c1 with hc | hc <;> rcases h.kind d d0 d1 with hd | hd
  · rw [← h.self c c0 c1 hc, hr, h.self d d0 d1 hd]
  · rw [if_neg (by omega), if_pos hd] at he
    have := key d n d0 d1 (le_refl _) hd _ hr.symm
    omega
  · rw [if_pos hc, if_neg (by omega)] at he
    have := key c n c0 c1 (le_refl _) hc _ rfl
    omega
  · rw [if_pos hc, if_pos hd] at he
    rcases lt_trichotomy c d with hlt | heq | hlt
    · have := key c d c0 hlt (by omega) hc _ rfl
      omega
    · exact heq
    · have := key d c d0 hlt (by omega) hd _ hr.symm
      omega

/-- The state of the loop of `order_children` before column `x`. -/
structure ChildrenInv (n : Int) (cols : Mem ColamdCol) (root : Int → Int) (x : Int) (cs : Mem ColamdCol) : Prop where
  size : cs.size = cols.size
  start : ∀ c, (cs.get c).start = (cols.get c).start
  done : ∀ c, 0 ≤ c → c < x → c < n → (cols.get c).start = -2 → (cs.get c).score = finalPosition n cols root c ∧ (cs.get c).thickness = root c
  todo : ∀ c, x ≤ c → c < n → (cols.get c).start = -2 → cs.get c = cols.get c
  principal : ∀ c, 0 ≤ c → c < n → (cols.get c).start = -1 → (cs.get c).score = (cols.get c).score + (absorbedBelow cols root c x).card

/-- The search for the principal parent finds the representative. -/
theorem principalParent_of (h : Grouped n cols.get root) (hn : n ≤ cols.size) {x : Int} {cs : Mem ColamdCol}
    (hi : ChildrenInv n cols root x cs) {c : Int} (c0 : 0 ≤ c) (c1 : c < n) (hc : (cols.get c).start = -2) :
    principalParent cs (cs.size + 1) c = .ok (root c) := by
  obtain ⟨rank, hrank⟩ := h.acyclic
  have key : ∀ (fuel : Nat) (c : Int), 0 ≤ c → c < n → (cols.get c).start = -2 →
      ((Finset.Ico 0 n).filter (fun d => rank d ≤ rank c)).card < fuel → principalParent cs fuel c = .ok (root c) := by
    intro fuel
    induction fuel with
    | zero => intro c _ _ _ hf; exact absurd hf (by omega)
    | succ fuel ih =>
      intro c c0 c1 hc hf
      rw [principalParent, Mem.read_of c0 (by rw [hi.size]; omega), ok_bind]
      by_cases hx : c < x
      · obtain ⟨_, ht⟩ := hi.done c c0 hx c1 hc
        obtain ⟨r0, r1, r2⟩ := h.principal c c0 c1
        rw [ht, Mem.read_of r0 (by rw [hi.size]; omega), ok_bind, if_pos (by rw [hi.start, r2])]
        rfl
      · rw [hi.todo c (by omega) c1 hc]
        obtain ⟨p0, p1, p2⟩ := h.parent c c0 c1 hc
        rw [Mem.read_of p0 (by rw [hi.size]; omega), ok_bind, hi.start]
        rcases h.kind _ p0 p1 with hk | hk
        · rw [if_pos hk, ← p2, h.self _ p0 p1 hk]
          rfl
        · rw [if_neg (by omega), ← p2]
          refine ih _ p0 p1 hk ?_
          have hlt := hrank c c0 c1 hc
          have : (Finset.Ico 0 n).filter (fun d => rank d ≤ rank (cols.get c).thickness) ⊂
              (Finset.Ico 0 n).filter (fun d => rank d ≤ rank c) := by
            refine Finset.ssubset_iff_subset_ne.2 ⟨fun d hd => ?_, fun heq => ?_⟩
            · simp only [Finset.mem_filter] at hd ⊢
              exact ⟨hd.1, by omega⟩
            · have : c ∈ (Finset.Ico 0 n).filter (fun d => rank d ≤ rank c) := by simp [c0, c1]
              rw [← heq] at this
              simp only [Finset.mem_filter] at this
              omega
          have := Finset.card_lt_card this
          omega
  refine key _ c c0 c1 hc ?_
  have h1 := Finset.card_le_card (Finset.filter_subset (fun d => rank d ≤ rank c) (Finset.Ico 0 n))
  rw [Int.card_Ico] at h1
  rw [hi.size]
  omega

theorem orderChild_of (h : Grouped n cols.get root) (hn : n ≤ cols.size) {x : Int} {cs : Mem ColamdCol}
    (hi : ChildrenInv n cols root x cs) (x0 : 0 ≤ x) (x1 : x < n) (hsn : n < 2 ^ 31) :
    ∃ cs', orderChild cs x = .ok cs' ∧ ChildrenInv n cols root (x + 1) cs' := by
  unfold orderChild
  rw [Mem.read_of x0 (by rw [hi.size]; omega), ok_bind]
  rcases h.kind x x0 x1 with hk | hk
  · rw [if_neg (by rw [hi.start]; tauto)]
    refine ⟨cs, rfl, hi.size, hi.start, fun c c0 c1 c2 hc => hi.done c c0 ?_ c2 hc, fun c c1 c2 hc => hi.todo c (by omega) c2 hc, fun c c0 c1 hc => ?_⟩
    · rcases eq_or_ne c x with rfl | hne
      · omega
      · omega
    · rw [hi.principal c c0 c1 hc, absorbedBelow_succ _ _ x0, if_neg (by omega)]
      rfl
  · have hx := hi.todo x (le_refl _) x1 hk
    rw [if_pos ⟨by rw [hi.start]; omega, by rw [hx]; exact h.unordered x x0 x1 hk⟩, principalParent_of h hn hi x0 x1 hk, ok_bind]
    obtain ⟨r0, r1, r2⟩ := h.principal x x0 x1
    have hne : root x ≠ x := by
      intro he
      rw [he] at r2
      omega
    have hord := h.order _ r0 r1 r2
    have hpr := hi.principal _ r0 r1 r2
    have hpos := h.position x0 x1
    simp only [finalPosition] at hpos
    rw [if_pos hk] at hpos
    rw [Mem.read_of r0 (by rw [hi.size]; omega), ok_bind, orderPath, Mem.modify_of _ x0 (by rw [hi.size]; omega), ok_bind, i32_of (by omega) (by omega), ok_bind,
      Mem.read_of r0 (by rw [Mem.put_size, hi.size]; omega), ok_bind, if_pos (by rw [Mem.put_get_ne _ _ hne]; omega)]
    simp only [pure_eq_ok, ok_bind]
    rw [Mem.modify_of _ r0 (by rw [Mem.put_size, hi.size]; omega)]
    refine ⟨_, rfl, hi.size, fun c => ?_, fun c c0 c1 c2 hc => ?_, fun c c1 c2 hc => ?_, fun c c0 c1 hc => ?_⟩
    · rw [Mem.put_get]
      split
      · rename_i he; subst he
        rw [Mem.put_get_ne _ _ hne]
        exact hi.start _
      · rw [Mem.put_get]
        split
        · rename_i he; subst he; exact hi.start _
        · exact hi.start _
    · have hcr : c ≠ root x := by rintro rfl; omega
      rw [Mem.put_get_ne _ _ hcr]
      by_cases hcx : c = x
      · subst hcx
        rw [Mem.put_get_self]
        refine ⟨?_, rfl⟩
        simp only [finalPosition]
        rw [hpr, if_pos hc]
      · rw [Mem.put_get_ne _ _ hcx]
        exact hi.done c c0 (by omega) c2 hc
    · have hcr : c ≠ root x := by rintro rfl; omega
      rw [Mem.put_get_ne _ _ hcr, Mem.put_get_ne _ _ (by omega)]
      exact hi.todo c (by omega) c2 hc
    · rw [absorbedBelow_succ _ _ x0]
      by_cases hcr : c = root x
      · subst hcr
        rw [Mem.put_get_self, if_pos ⟨hk, rfl⟩]
        simp only
        rw [hpr]
        push_cast
        ring
      · rw [Mem.put_get_ne _ _ hcr, if_neg (by tauto), Mem.put_get_ne _ _ (by rintro rfl; omega), hi.principal c c0 c1 hc]
        rfl

/-- `order_children` places every column at its final position. -/
theorem orderChildren_of (h : Grouped n cols.get root) (n0 : 0 ≤ n) (hn : n ≤ cols.size) (hsn : n < 2 ^ 31) (p : Mem Int) (hp : n ≤ p.size) :
    ∃ p', orderChildren n cols p = .ok p' ∧ p'.size = p.size ∧ (∀ c, 0 ≤ c → c < n → p'.get (finalPosition n cols root c) = c) ∧
      ∀ x, n ≤ x → p'.get x = p.get x := by
  unfold orderChildren
  obtain ⟨cs, h1, hi⟩ := foldlM_span (ChildrenInv n cols root) orderChild 0 n n.toNat (by omega) cols
    ⟨rfl, fun _ => rfl, fun c c0 c1 => by omega, fun _ _ _ _ => rfl, fun c _ _ _ => by simp [absorbedBelow]⟩
    (fun x x0 x1 cs hi => orderChild_of h hn hi x0 x1 hsn)
  rw [h1, ok_bind]
  have hbound : ∀ c, 0 ≤ c → c < n → 0 ≤ finalPosition n cols root c ∧ finalPosition n cols root c < n := by
    intro c c0 c1
    obtain ⟨r0, r1, r2⟩ := h.principal c c0 c1
    have := h.position c0 c1
    have := h.order _ r0 r1 r2
    omega
  refine foldlM_span (fun x q => q.size = p.size ∧ (∀ c, 0 ≤ c → c < x → q.get (finalPosition n cols root c) = c) ∧
    ∀ y, n ≤ y → q.get y = p.get y) _ 0 n n.toNat (by omega) p ⟨rfl, fun c c0 c1 => by omega, fun _ _ => rfl⟩ ?_
  rintro x x0 x1 q ⟨q1, q2, q3⟩
  unfold placeColumn
  have hscore : (cs.get x).score = finalPosition n cols root x := by
    rcases h.kind x x0 x1 with hk | hk
    · rw [hi.principal x x0 x1 hk]
      unfold finalPosition
      rw [h.self x x0 x1 hk, if_neg (by omega)]
    · exact (hi.done x x0 x1 x1 hk).1
  have hb := hbound x x0 x1
  rw [Mem.read_of x0 (by rw [hi.size]; omega), ok_bind, hscore, Mem.write_of _ hb.1 (by omega)]
  refine ⟨_, rfl, q1, fun c c0 c1 => ?_, fun y hy => ?_⟩
  · rcases eq_or_ne c x with rfl | hne
    · rw [Mem.put_get_self]
    · rw [Mem.put_get_ne, q2 c c0 (by omega)]
      intro he
      exact hne (h.position_injective c0 (by omega) x0 x1 he)
  · rw [Mem.put_get_ne _ _ (by omega), q3 y hy]

/-- Positions that hold every column form a permutation. -/
theorem perm_of_positions {p : Mem Int} (n0 : 0 ≤ n) (hp : n ≤ p.size) (f : Int → Int)
    (h : ∀ c, 0 ≤ c → c < n → (0 ≤ f c ∧ f c < n) ∧ p.get (f c) = c) : (p.toList.take n.toNat).Perm (span 0 n.toNat) := by
  have hlen : (p.toList.take n.toNat).length = n.toNat := by
    simp only [Mem.toList, List.length_take, List.length_map, List.length_range]
    omega
  have hnodup : (span 0 n.toNat).Nodup := by
    unfold span
    refine (List.nodup_map_iff ?_).2 List.nodup_range
    intro a b hab
    simp only at hab
    omega
  have hsub : span 0 n.toNat ⊆ p.toList.take n.toNat := by
    intro c hc
    rw [mem_span] at hc
    obtain ⟨⟨f0, f1⟩, hf⟩ := h c hc.1 (by omega)
    rw [List.mem_iff_getElem?]
    refine ⟨(f c).toNat, ?_⟩
    rw [List.getElem?_take, if_pos (by omega)]
    unfold Mem.toList
    rw [List.getElem?_map, List.getElem?_range (by omega)]
    simp only [Option.map_some, Option.some.injEq]
    rw [← hf]
    congr 1
    rw [hf]
    omega
  refine ((List.subperm_of_subset hnodup hsub).perm_of_length_le ?_).symm
  rw [hlen, span_length]

end Fiksi
