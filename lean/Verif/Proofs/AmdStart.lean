import Verif.Proofs.AmdChoose
import Verif.Proofs.ColamdRows
/-!
# The pattern that `init_rows_cols` builds
-/
namespace Fiksi.Amd
open Classical Spec

section
variable {a p : Int → Int} {m n : Int}

theorem colRows_card (hsort : SortedColumns a p n) {c : Int} (c0 : 0 ≤ c) (cn : c < n) (hm : p c ≤ p (c + 1)) : ((colRows a p c).card : Int) = p (c + 1) - p c := by
  unfold colRows seenRows
  rw [Finset.card_image_of_injOn, Int.card_Ico]
  · omega
  · intro i hi j hj hij
    simp only [Finset.coe_Ico, Set.mem_Ico] at hi hj
    rcases lt_trichotomy i j with hlt | heq | hlt
    · have := hsort c c0 cn i j hi.1 hlt hj.2
      omega
    · exact heq
    · have := hsort c c0 cn j i hj.1 hlt hi.2
      omega

theorem total_eq (h : ColumnForm a p m n) (hsort : SortedColumns a p n) : ∑ r ∈ Finset.Ico 0 m, ((rowCols a p r n).card : Int) = p n := by
  have h1 : ∑ r ∈ Finset.Ico 0 m, (rowCols a p r n).card = ∑ c ∈ Finset.Ico 0 n, ((Finset.Ico 0 m).filter (fun r => r ∈ colRows a p c)).card :=
    Finset.sum_card_bipartiteAbove_eq_sum_card_bipartiteBelow (fun r c => r ∈ colRows a p c)
  have h2 : ∀ x : Nat, (x : Int) ≤ n → ((∑ c ∈ Finset.Ico (0 : Int) x, ((Finset.Ico 0 m).filter (fun r => r ∈ colRows a p c)).card : Nat) : Int) = p x := by
    intro x
    induction x with
    | zero => intro _; simp [h.first]
    | succ x ih =>
      intro hx
      have hI : Finset.Ico (0 : Int) ((x + 1 : Nat) : Int) = insert (x : Int) (Finset.Ico 0 (x : Int)) := by
        rw [← Ico_right_succ _ _ (by omega)]
        norm_num
      have hf : (Finset.Ico 0 m).filter (fun r => r ∈ colRows a p x) = colRows a p x := by
        refine Finset.ext fun r => ?_
        simp only [Finset.mem_filter, Finset.mem_Ico, and_iff_right_iff_imp]
        intro hr
        obtain ⟨i, i1, i2, rfl⟩ := mem_colRows.1 hr
        exact (h.entry (by omega) (by omega) i1 i2).2
      rw [hI, Finset.sum_insert (by simp), hf]
      have := ih (by omega)
      have hc := colRows_card hsort (c := (x : Int)) (by omega) (by omega) (h.mono _ (by omega) (by omega))
      push_cast at this hc ⊢
      omega
  have h3 := h2 n.toNat (by have := h.cols; omega)
  rw [show ((n.toNat : Nat) : Int) = n by have := h.cols; omega, ← h1] at h3
  exact_mod_cast h3

/-- Every cell of the row part belongs to a row. -/
theorem row_cover (h : ColumnForm a p m n) (hsort : SortedColumns a p n) {i : Int} (h1 : p n ≤ i) (h2 : i < 2 * p n) :
    ∃ r, 0 ≤ r ∧ r < m ∧ rowStart a p n r ≤ i ∧ i < rowStart a p n r + (rowCols a p r n).card := by
  have hend : rowStart a p n m = 2 * p n := by
    unfold rowStart
    rw [total_eq h hsort]
    ring
  have key : ∀ x : Nat, i < rowStart a p n x → ∃ r, 0 ≤ r ∧ r < (x : Int) ∧ rowStart a p n r ≤ i ∧ i < rowStart a p n r + (rowCols a p r n).card := by
    intro x
    induction x with
    | zero =>
      intro hx
      simp only [Nat.cast_zero, rowStart_zero] at hx
      omega
    | succ x ih =>
      intro hx
      by_cases hlt : i < rowStart a p n x
      · obtain ⟨r, r0, r1, r2⟩ := ih hlt
        exact ⟨r, r0, by push_cast; omega, r2⟩
      · have := rowStart_succ (a := a) (p := p) (n := n) (r := (x : Int)) (by omega)
        push_cast at hx ⊢
        exact ⟨x, by omega, by omega, by omega, by omega⟩
  have := h.rows
  obtain ⟨r, r0, r1, r2⟩ := key m.toNat (by rw [show ((m.toNat : Nat) : Int) = m by omega, hend]; exact h2)
  exact ⟨r, r0, by omega, r2⟩

/-- The pattern before columns and rows are removed. -/
structure Start (m n nnz : Int) (R : Int → ColamdRow) (C : Int → ColamdCol) (A : Int → Int) : Prop where
  pattern : Pattern m n nnz (2 * nnz) R C A
  thick : ∀ c, 0 ≤ c → c < n → (C c).thickness = 1
  alive : ∀ c, 0 ≤ c → c < n → 0 ≤ (C c).start
  marks : ∀ r, 0 ≤ r → r < m → (R r).mark = 0
  degree : ∀ r, 0 ≤ r → r < m → (R r).degree = (colsOf n C A r).card

theorem start_of (h : ColumnForm a p m n) (hsort : SortedColumns a p n) {R : Int → ColamdRow} {C : Int → ColamdCol} {A : Int → Int}
    (hR : ∀ r, 0 ≤ r → r < m → R r = ⟨rowStart a p n r, (rowCols a p r n).card, (rowCols a p r n).card, 0⟩)
    (hC : ∀ c, 0 ≤ c → c < n → C c = ⟨p c, p (c + 1) - p c, 1, 0, -1, -1⟩)
    (hA : ∀ x, x < p n → A x = a x) (hS : ∀ r c, 0 ≤ r → r < m → 0 ≤ c → c < n → Entry a p r c → A (rowSlot a p n r c) = c)
    (hsmall : m < 2 ^ 31 ∧ 4 * n + 8 < 2 ^ 31 ∧ p n < 2 ^ 31) : Start m n (p n) R C A := by
  have hrs : ∀ r, 0 ≤ r → r < m → (R r).start = rowStart a p n r ∧ (R r).length = (rowCols a p r n).card ∧ (R r).degree = (rowCols a p r n).card ∧ (R r).mark = 0 :=
    fun r r0 rm => by rw [hR r r0 rm]; exact ⟨rfl, rfl, rfl, rfl⟩
  have hcs : ∀ c, 0 ≤ c → c < n → (C c).start = p c ∧ (C c).length = p (c + 1) - p c ∧ (C c).thickness = 1 := fun c c0 cn => by
    rw [hC c c0 cn]; exact ⟨rfl, rfl, rfl⟩
  have hlists : ∀ r, 0 ≤ r → r < m → Lists A (rowStart a p n r) (rowCols a p r n).card (fun c => (0 ≤ c ∧ c < n) ∧ Entry a p r c) := fun r r0 rm =>
    lists_of_slots h.cols (fun c c0 cn he => hS r c r0 rm c0 cn he)
  have hin : ∀ c, 0 ≤ c → c < n → ∀ r, InCol C A c r ↔ Entry a p r c := fun c c0 cn r => by
    obtain ⟨q1, q2, _⟩ := hcs c c0 cn
    unfold InCol Has Entry
    rw [q1, q2]
    constructor
    · rintro ⟨i, i1, i2, i3⟩
      have := h.entry c0 cn i1 (by omega)
      exact ⟨i, i1, by omega, by rw [← hA i this.1.2]; exact i3⟩
    · rintro ⟨i, i1, i2, i3⟩
      have := h.entry c0 cn i1 i2
      exact ⟨i, i1, by omega, by rw [hA i this.1.2]; exact i3⟩
  have hnn := h.nonneg h.cols (le_refl n)
  have hrl := h.rowStart_le
  refine ⟨⟨h.rows, h.cols, hnn, by omega, hsmall, fun c hc => ?_, fun c d hc hd hlt => ?_, fun r hr => ?_, fun r s hr hs hne => ?_, fun i i0 i1 => ?_, fun c hc => ?_, fun r hr => ?_,
    fun c hc r hr => ?_, fun r hr c hc => ?_, fun c r hc hr => ?_⟩, fun c c0 cn => (hcs c c0 cn).2.2, fun c c0 cn => ?_, fun r r0 rm => (hrs r r0 rm).2.2.2, fun r r0 rm => ?_⟩
  · obtain ⟨q1, q2, _⟩ := hcs c hc.1 hc.2.1
    have := h.mono c hc.1 hc.2.1
    have := h.mono' (show 0 ≤ c + 1 by have := hc.1; omega) (by have := hc.2.1; omega) (le_refl n)
    omega
  · obtain ⟨q1, q2, _⟩ := hcs c hc.1 hc.2.1
    obtain ⟨p1, p2, _⟩ := hcs d hd.1 hd.2.1
    have := h.mono' (show 0 ≤ c + 1 by have := hc.1; omega) (show c + 1 ≤ d by omega) (by have := hd.2.1; omega)
    omega
  · obtain ⟨q1, q2, _⟩ := hrs r hr.1 hr.2.1
    have h1 := rowStart_mono (a := a) (p := p) (n := n) hr.1
    rw [rowStart_zero] at h1
    have h2 := rowStart_disjoint (a := a) (p := p) (n := n) hr.1 hr.2.1
    omega
  · obtain ⟨q1, q2, _⟩ := hrs r hr.1 hr.2.1
    obtain ⟨p1, p2, _⟩ := hrs s hs.1 hs.2.1
    rcases lt_or_gt_of_ne hne with hlt | hlt
    · have := rowStart_disjoint (a := a) (p := p) (n := n) hr.1 hlt
      omega
    · have := rowStart_disjoint (a := a) (p := p) (n := n) hs.1 hlt
      omega
  · by_cases hi : i < p n
    · rw [hA i hi]
      exact (h.bound i i0 hi).1
    · obtain ⟨r, r0, rm, r1, r2⟩ := row_cover h hsort (by omega) i1
      exact ((hlists r r0 rm).2.2 (A i)).2 ⟨i, r1, r2, rfl⟩ |>.1.1
  · obtain ⟨q1, q2, _⟩ := hcs c hc.1 hc.2.1
    rw [q1, q2]
    intro i j h1 h2 h3
    have e1 := (h.entry hc.1 hc.2.1 h1 (by omega)).1.2
    have e2 := (h.entry hc.1 hc.2.1 (show p c ≤ j by omega) (by omega)).1.2
    rw [hA i e1, hA j e2]
    have := hsort c hc.1 hc.2.1 i j h1 h2 (by omega)
    omega
  · obtain ⟨q1, q2, _⟩ := hrs r hr.1 hr.2.1
    rw [q1, q2]
    intro i j h1 h2 h3
    have := (hlists r hr.1 hr.2.1).2.1 i j h1 h2 h3
    omega
  · obtain ⟨i, i1, i2, i3⟩ := (hin c hc.1 hc.2.1 r).1 hr
    have := (h.entry hc.1 hc.2.1 i1 i2).2
    rw [i3] at this
    exact ⟨this.1, this.2, by rw [(hrs r this.1 this.2).2.2.2]⟩
  · obtain ⟨q1, q2, _⟩ := hrs r hr.1 hr.2.1
    unfold InRow at hc
    rw [q1, q2] at hc
    exact (((hlists r hr.1 hr.2.1).2.2 c).2 hc).1
  · obtain ⟨q1, q2, _⟩ := hrs r hr.1 hr.2.1
    rw [hin c hc.1 hc.2.1]
    have := (hlists r hr.1 hr.2.1).2.2 c
    unfold InRow Has
    rw [q1, q2, ← this]
    simp only [hc.1, hc.2.1, true_and]
  · rw [(hcs c c0 cn).1]
    exact h.nonneg c0 (by omega)
  · rw [(hrs r r0 rm).2.2.1]
    congr 2
    ext c
    rw [mem_rowCols, mem_colsOf]
    constructor
    · rintro ⟨⟨c0, cn⟩, he⟩
      exact ⟨⟨c0, cn, by rw [(hcs c c0 cn).1]; exact h.nonneg c0 (by omega)⟩, (hin c c0 cn r).2 he⟩
    · rintro ⟨hc, he⟩
      exact ⟨⟨hc.1, hc.2.1⟩, (hin c hc.1 hc.2.1 r).1 he⟩

end
end Fiksi.Amd
