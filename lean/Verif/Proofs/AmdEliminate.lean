import Verif.Proofs.AmdNext
/-!
# One pivot: the elimination runs
-/
namespace Fiksi.Amd
open Classical

theorem clearMark_of {m : Int} (hm0 : 0 ≤ m) (rows : Mem ColamdRow) (hm : m ≤ rows.size) (tag maxMark : Int) (ht : 0 < tag → ∀ r, AliveRow m rows.get r → (rows.get r).mark < tag) :
    ∃ rows' tag', clearMark tag maxMark m rows = .ok (rows', tag') ∧ rows'.size = rows.size ∧ 1 ≤ tag' ∧
      (∀ r, rows'.get r = { rows.get r with mark := (rows'.get r).mark } ∧ (0 ≤ (rows'.get r).mark ↔ 0 ≤ (rows.get r).mark)) ∧
      (∀ r, AliveRow m rows'.get r → (rows'.get r).mark < tag') ∧ (tag' = 1 ∨ tag' < maxMark) := by
  unfold clearMark
  by_cases hc : tag ≤ 0 ∨ maxMark ≤ tag
  · rw [if_pos hc]
    obtain ⟨rows', e, h1, h2, h3⟩ := foldlM_span (fun x (rs : Mem ColamdRow) => rs.size = rows.size ∧
        (∀ r, rs.get r = { rows.get r with mark := (rs.get r).mark } ∧ (0 ≤ (rs.get r).mark ↔ 0 ≤ (rows.get r).mark)) ∧
        ∀ r, 0 ≤ r → r < x → (rs.get r).mark ≤ 0) clearRow 0 m m.toNat (by omega) rows ⟨rfl, fun r => ⟨rfl, Iff.rfl⟩, fun r h1 h2 => by omega⟩ (by
      rintro x hx1 hx2 rs ⟨h1, h2, h3⟩
      unfold clearRow
      rw [Mem.read_of hx1 (by omega), ok_bind]
      by_cases h0 : 0 ≤ (rs.get x).mark
      · rw [if_pos h0, Mem.write_of _ hx1 (by omega)]
        refine ⟨_, rfl, h1, fun r => ?_, fun r r0 r1 => ?_⟩
        · rcases eq_or_ne r x with rfl | hne
          · rw [Mem.put_get_self]
            refine ⟨?_, by simp only [le_refl, true_iff]; exact (h2 r).2.1 h0⟩
            simp only
            rw [(h2 r).1]
          · rw [Mem.put_get_ne _ _ hne]; exact h2 r
        · rcases eq_or_ne r x with rfl | hne
          · rw [Mem.put_get_self]
          · rw [Mem.put_get_ne _ _ hne]; exact h3 r r0 (by omega)
      · rw [if_neg h0]
        refine ⟨_, rfl, h1, h2, fun r r0 r1 => ?_⟩
        rcases eq_or_ne r x with rfl | hne
        · omega
        · exact h3 r r0 (by omega))
    rw [e, ok_bind]
    refine ⟨_, _, rfl, h1, le_refl _, h2, fun r hr => ?_, Or.inl rfl⟩
    have := h3 r hr.1 hr.2.1
    omega
  · rw [if_neg hc]
    exact ⟨_, _, rfl, rfl, by omega, fun r => ⟨rfl, Iff.rfl⟩, ht (by omega), Or.inr (by omega)⟩

section
variable {m n top pfree tag : Int} {R : Int → ColamdRow} {C C2 : Int → ColamdCol} {A : Int → Int} {P : Int} {aggressive : Bool}

/-- The links of the columns do not matter for the pattern. -/
structure SameLinks (C C2 : Int → ColamdCol) : Prop where
  eq : ∀ c, C2 c = { C c with prev := (C2 c).prev, next := (C2 c).next }

namespace SameLinks
theorem start (h : SameLinks C C2) (c : Int) : (C2 c).start = (C c).start := by rw [h.eq]
theorem length (h : SameLinks C C2) (c : Int) : (C2 c).length = (C c).length := by rw [h.eq]
theorem thickness (h : SameLinks C C2) (c : Int) : (C2 c).thickness = (C c).thickness := by rw [h.eq]
theorem score (h : SameLinks C C2) (c : Int) : (C2 c).score = (C c).score := by rw [h.eq]

theorem aliveCol (h : SameLinks C C2) : AliveCol n C2 = AliveCol n C := by
  funext c; unfold AliveCol; rw [h.start]

theorem alive (h : SameLinks C C2) : alive n C2 = alive n C := by
  unfold Amd.alive; rw [h.aliveCol]

theorem inCol (h : SameLinks C C2) : InCol C2 A = InCol C A := by
  funext c r; unfold InCol; rw [h.start, h.length]

theorem keptRows (h : SameLinks C C2) : keptRows R C2 A = keptRows R C A := by
  funext d; unfold Amd.keptRows; rw [h.start, h.length]

theorem keptScore (h : SameLinks C C2) : keptScore n tag R C2 A = keptScore n tag R C A := by
  funext d; unfold Amd.keptScore; rw [h.keptRows]

theorem weight (h : SameLinks C C2) : weight C2 = weight C := by
  funext S; unfold Amd.weight
  exact Finset.sum_congr rfl fun d _ => h.thickness d

theorem pivotSet (h : SameLinks C C2) : pivotSet n C2 A = pivotSet n C A := by
  funext P; unfold Amd.pivotSet; rw [h.alive, h.inCol]

theorem pattern (h : SameLinks C C2) (hp : Pattern m n top pfree R C A) : Pattern m n top pfree R C2 A := by
  obtain ⟨h1, h2, h3, h4, hsmall, h5, h6, h7, h8, h9, h10, h11, h12, h13, h14⟩ := hp
  refine ⟨h1, h2, h3, h4, hsmall, fun c hc => ?_, fun c d hc hd hlt => ?_, h7, h8, h9, fun c hc => ?_, h11, fun c hc r hr => ?_, h13, fun c r hc hr => ?_⟩
  · rw [h.aliveCol] at hc; rw [h.start, h.length]; exact h5 c hc
  · rw [h.aliveCol] at hc hd; rw [h.start, h.length, h.start]; exact h6 c d hc hd hlt
  · rw [h.aliveCol] at hc; rw [h.start, h.length]; exact h10 c hc
  · rw [h.aliveCol] at hc; rw [h.inCol] at hr; exact h12 c hc r hr
  · rw [h.aliveCol] at hc; rw [h.inCol]; exact h14 c r hc hr

end SameLinks
end

section
variable {n tag k0 deg0 n2 : Int} {R2 : Int → ColamdRow} {C : Int → ColamdCol} {A : Int → Int} {P : Int} {Q : Finset Int} {C3 D0 D : Int → ColamdCol} {A3 : Int → Int}

/-- The thickness of sets of columns after equal columns have been absorbed and the pivot has been ordered. -/
theorem merged_sum (hPQ : P ∉ Q) (hQ : ∀ d ∈ Q, AliveCol n C d)
    (hother : ∀ c, c ∉ Q → (C3 c).start = (C c).start ∧ (C3 c).thickness = (C c).thickness)
    (hdead : ∀ c ∈ Q, keptRows R2 C A c = ∅ → (C3 c).start = -1)
    (hkept : ∀ c ∈ Q, keptRows R2 C A c ≠ ∅ → (C3 c).start = (C c).start ∧ (C3 c).thickness = (C c).thickness)
    (hin : ∀ c ∈ Q, keptRows R2 C A c ≠ ∅ → ∀ r, InCol C3 A3 c r ↔ r ∈ keptRows R2 C A c)
    (hm : Merged n (fun c => c ∈ Q ∧ keptRows R2 C A c ≠ ∅) C3 A3 D0)
    (hD : ∀ c, c ≠ P → D c = D0 c) (hDP : (D P).start = -1) {X : Int → Prop} (hX : ∀ c ∈ Q, ∀ d ∈ Q, keptRows R2 C A c = keptRows R2 C A d → (X c ↔ X d)) :
    ∑ c ∈ alive n D, (if X c then (D c).thickness else 0) =
      ∑ c ∈ (alive n C).filter (fun c => c ≠ P ∧ (c ∈ Q → keptRows R2 C A c ≠ ∅)), (if X c then (C c).thickness else 0) := by
  have h1 := hm.sum (fun c => X c ∧ c ≠ P) (fun c d hc hd hs => by
    have hcP : c ≠ P := fun q => hPQ (q ▸ hc.1)
    have hdP : d ≠ P := fun q => hPQ (q ▸ hd.1)
    simp only [ne_eq, hcP, hdP, not_false_iff, and_true]
    refine hX c hc.1 d hd.1 ?_
    ext r
    rw [← hin c hc.1 hc.2, ← hin d hd.1 hd.2]
    exact hs.inCol r)
  have e1 : ∑ c ∈ alive n D, (if X c then (D c).thickness else 0) = ∑ c ∈ alive n D0, (if X c ∧ c ≠ P then (D0 c).thickness else 0) := by
    have hal : alive n D = (alive n D0).filter (fun c => c ≠ P) := by
      ext c
      simp only [mem_alive, Finset.mem_filter, AliveCol]
      rcases eq_or_ne c P with rfl | hne
      · simp only [ne_eq, not_true, and_false, iff_false]
        rw [hDP]; omega
      · rw [hD c hne]; simp only [ne_eq, hne, not_false_iff, and_true]
    rw [hal, Finset.sum_filter]
    refine Finset.sum_congr rfl fun c _ => ?_
    by_cases hne : c = P
    · simp only [hne, ne_eq, not_true, if_false, and_false]
    · simp only [ne_eq, hne, not_false_iff, if_true, and_true, hD c hne]
  have e2 : ∑ c ∈ alive n C3, (if X c ∧ c ≠ P then (C3 c).thickness else 0) =
      ∑ c ∈ (alive n C).filter (fun c => c ≠ P ∧ (c ∈ Q → keptRows R2 C A c ≠ ∅)), (if X c then (C c).thickness else 0) := by
    have hal : alive n C3 = (alive n C).filter (fun c => c ∈ Q → keptRows R2 C A c ≠ ∅) := by
      ext c
      simp only [mem_alive, Finset.mem_filter, AliveCol]
      by_cases hc : c ∈ Q
      · by_cases hK : keptRows R2 C A c = ∅
        · rw [hdead c hc hK]
          simp [hc, hK]
        · rw [(hkept c hc hK).1]
          simp [hK]
      · rw [(hother c hc).1]
        simp [hc]
    rw [hal, Finset.sum_filter, Finset.sum_filter]
    refine Finset.sum_congr rfl fun c _ => ?_
    have ht : (c ∈ Q → keptRows R2 C A c ≠ ∅) → (C3 c).thickness = (C c).thickness := fun hc => by
      by_cases hcQ : c ∈ Q
      · exact (hkept c hcQ (hc hcQ)).2
      · exact (hother c hcQ).2
    by_cases hc : c ∈ Q → keptRows R2 C A c ≠ ∅
    · simp only [hc, if_true, and_true, ht hc]
      by_cases hne : c = P
      · simp [hne]
      · simp [hne]
    · simp only [hc, if_false, and_false]
  exact e1.trans ((Finset.sum_congr rfl fun c _ => by congr).trans (h1.trans ((Finset.sum_congr rfl fun c _ => by congr).trans e2)))

end
end Fiksi.Amd
