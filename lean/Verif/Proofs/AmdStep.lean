import Verif.Proofs.AmdFinish
/-!
# One pivot: what holds before, and what the pivot leaves
-/
namespace Fiksi.Amd
open Classical

section
variable {m n top pfree tag : Int} {R : Int → ColamdRow} {C : Int → ColamdCol} {A : Int → Int} {P : Int} {aggressive : Bool}

/-- The rows after the rows of the pivot column have died. -/
noncomputable def killed (R : Int → ColamdRow) (C : Int → ColamdCol) (A : Int → Int) (P r : Int) : ColamdRow :=
  if InCol C A P r then { R r with mark := -1 } else R r

/-- The rows after the set differences. -/
noncomputable def differenced (aggressive : Bool) (n tag : Int) (R : Int → ColamdRow) (C : Int → ColamdCol) (A : Int → Int) (P r : Int) : ColamdRow :=
  { R r with mark := markAfter aggressive tag (killed R C A P) C A (pivotSet n C A P) r }

theorem diff_alive {r : Int} (h : 0 ≤ (differenced aggressive n tag R C A P r).mark) : ¬ InCol C A P r ∧ 0 ≤ (R r).mark := by
  unfold differenced markAfter at h
  simp only at h
  by_cases hP : InCol C A P r
  · have : (killed R C A P r).mark = -1 := by unfold killed; rw [if_pos hP]
    rw [this, if_pos (Or.inl (by omega))] at h
    omega
  · have : killed R C A P r = R r := by unfold killed; rw [if_neg hP]
    rw [this] at h
    refine ⟨hP, ?_⟩
    by_contra hneg
    rw [if_pos (Or.inl (by omega))] at h
    exact hneg h

theorem touching_pivot {r : Int} (h : ¬ InCol C A P r) : touching C A (pivotSet n C A P) r = (colsOf n C A r).filter (fun d => d ∈ pivotSet n C A P) := by
  ext d
  simp only [touching, Finset.mem_filter, mem_colsOf]
  constructor
  · rintro ⟨h1, h2⟩
    exact ⟨⟨(mem_pivotSet.1 h1).1, h2⟩, h1⟩
  · rintro ⟨h1, h2⟩
    exact ⟨h2, h1.2⟩

/-- The columns outside the pivot row that contain row `r`. -/
noncomputable def outside (n : Int) (C : Int → ColamdCol) (A : Int → Int) (P r : Int) : Finset Int := (colsOf n C A r).filter (fun d => d ∉ pivotSet n C A P)

theorem weight_split {r : Int} (h : ¬ InCol C A P r) :
    weight C (colsOf n C A r) = weight C (touching C A (pivotSet n C A P) r) + weight C (outside n C A P r) := by
  rw [touching_pivot h]
  unfold weight outside
  exact (Finset.sum_filter_add_sum_filter_not _ _ _).symm

theorem diff_value (hw : Weights m n tag R C A) (hp : Pattern m n top pfree R C A) {c r : Int} (hc : c ∈ pivotSet n C A P) (hr : InCol C A c r)
    (h : 0 ≤ (differenced aggressive n tag R C A P r).mark) : (differenced aggressive n tag R C A P r).mark - tag = weight C (outside n C A P r) := by
  obtain ⟨h1, h2⟩ := diff_alive h
  have hal := hp.colRow c (mem_pivotSet.1 hc).1 r hr
  have hk : killed R C A P r = R r := by unfold killed; rw [if_neg h1]
  have hne : touching C A (pivotSet n C A P) r ≠ ∅ := by
    rw [← Finset.nonempty_iff_ne_empty]
    exact ⟨c, by simp only [touching, Finset.mem_filter]; exact ⟨hc, hr⟩⟩
  have hs := weight_split (n := n) h1
  unfold differenced markAfter at h ⊢
  simp only [hk] at h ⊢
  rw [if_neg (by simp only [hne, or_false]; omega)] at h ⊢
  rw [hw.degree r hal] at h ⊢
  by_cases hz : weight C (colsOf n C A r) - weight C (touching C A (pivotSet n C A P) r) = 0 ∧ aggressive = true
  · rw [if_pos hz] at h
    omega
  · rw [if_neg hz]
    omega

theorem outside_nonneg (hw : Weights m n tag R C A) {r : Int} : 0 ≤ weight C (outside n C A P r) :=
  Finset.sum_nonneg fun d hd => by
    have := hw.thick d (mem_colsOf.1 (Finset.mem_filter.1 hd).1).1
    omega

theorem diff_other (hw : Weights m n tag R C A) (hp : Pattern m n top pfree R C A) (htag : 1 ≤ tag) {c r : Int} (hc : AliveCol n C c) (hcQ : c ∉ pivotSet n C A P) (hcP : c ≠ P)
    (hr : InCol C A c r) : 0 ≤ (differenced aggressive n tag R C A P r).mark := by
  have hal := hp.colRow c hc r hr
  have h1 : ¬ InCol C A P r := fun q => hcQ (mem_pivotSet.2 ⟨hc, hcP, r, q, hr⟩)
  have hk : killed R C A P r = R r := by unfold killed; rw [if_neg h1]
  have hs := weight_split (n := n) h1
  have ho : (C c).thickness ≤ weight C (outside n C A P r) := by
    refine Finset.single_le_sum (f := fun d => (C d).thickness) (fun d hd => ?_) ?_
    · have := hw.thick d (mem_colsOf.1 (Finset.mem_filter.1 hd).1).1
      omega
    · exact Finset.mem_filter.2 ⟨mem_colsOf.2 ⟨hc, hr⟩, hcQ⟩
  have ht := hw.thick c hc
  have hm := hal.2.2
  unfold differenced markAfter
  simp only [hk]
  by_cases he : touching C A (pivotSet n C A P) r = ∅
  · rw [if_pos (Or.inr he)]
    exact hm
  · rw [if_neg (by simp only [he, or_false]; omega), hw.degree r hal, if_neg (by omega)]
    omega

theorem diff_marks (hw : Weights m n tag R C A) {maxDeg : Int} (hd : ∀ r, AliveRow m R r → (R r).degree ≤ maxDeg) (htag : 1 ≤ tag) {r : Int}
    (hmd : 0 ≤ maxDeg) (hr : AliveRow m (differenced aggressive n tag R C A P) r) : (differenced aggressive n tag R C A P r).mark < tag + maxDeg + 1 := by
  obtain ⟨h1, h2⟩ := diff_alive hr.2.2
  have hal : AliveRow m R r := ⟨hr.1, hr.2.1, h2⟩
  have hk : killed R C A P r = R r := by unfold killed; rw [if_neg h1]
  have hm := hw.marks r hal
  have hdr := hd r hal
  have hwt : 0 ≤ weight C (touching C A (pivotSet n C A P) r) := Finset.sum_nonneg fun d hd => by
    have := hw.thick d (mem_pivotSet.1 (Finset.mem_filter.1 hd).1).1
    omega
  unfold differenced markAfter
  simp only [hk]
  by_cases he : (R r).mark < 0 ∨ touching C A (pivotSet n C A P) r = ∅
  · rw [if_pos he]; omega
  · rw [if_neg he]
    by_cases hz : (R r).degree - weight C (touching C A (pivotSet n C A P) r) = 0 ∧ aggressive = true
    · rw [if_pos hz]; omega
    · rw [if_neg hz]; omega

/-- A column of the pivot row loses a row. -/
theorem kept_lt (hp : Pattern m n top pfree R C A) {c : Int} (hc : c ∈ pivotSet n C A P) :
    ((keptRows (differenced aggressive n tag R C A P) C A c).card : Int) < (C c).length := by
  obtain ⟨h1, h2, r, h3, h4⟩ := mem_pivotSet.1 hc
  have hl := (hp.colLen c h1).1
  have hh := (holds_image (hp.colInj c h1) hl)
  have hcard := hh.card
  have hss : keptRows (differenced aggressive n tag R C A P) C A c ⊂ (Finset.Ico (C c).start ((C c).start + (C c).length)).image A := by
    refine (Finset.ssubset_iff_of_subset (Finset.filter_subset _ _)).2 ⟨r, (hh.2.2 r).1 h4, fun q => ?_⟩
    exact (diff_alive (mem_keptRows.1 q).2).1 h3
  have := Finset.card_lt_card hss
  omega

/-- Before a pivot is eliminated. -/
structure Chosen (m n n2 nnz aLen : Int) (s : OrderState) (P : Int) : Prop where
  fits : aLen + n < 2 ^ 31 ∧ 0 ≤ s.garbage ∧ s.garbage ≤ s.k ∧ s.maxDeg ≤ n
  rsize : m ≤ s.b.rows.size
  csize : n ≤ s.b.cols.size
  asize : aLen ≤ s.b.a.size
  hsize : (s.b.head.size : Int) = n + 1
  room : s.pfree + (pivotSet n s.b.cols.get s.b.a.get P).card ≤ aLen
  pattern : ∃ top, Pattern m n top s.pfree s.b.rows.get s.b.cols.get s.b.a.get ∧ top ≤ nnz
  weights : Weights m n s.tagMark s.b.rows.get s.b.cols.get s.b.a.get
  tag : 1 ≤ s.tagMark
  degs : ∀ r, AliveRow m s.b.rows.get r → (s.b.rows.get r).degree ≤ s.maxDeg
  maxDeg : 0 ≤ s.maxDeg
  pivot : AliveCol n s.b.cols.get P
  lists : DegLists n (fun c => AliveCol n s.b.cols.get c ∧ c ≠ P) s.b.head.get (fun c => (s.b.cols.get c).score) (fun c => (s.b.cols.get c).prev)
    (fun c => (s.b.cols.get c).next)
  min0 : 0 ≤ s.minScore
  minLe : ∀ c, AliveCol n s.b.cols.get c → c ≠ P → s.minScore ≤ (s.b.cols.get c).score
  groups : ∃ root, Groups n s.b.cols.get root
  k0 : 0 ≤ s.k
  n2Le : n2 ≤ n
  placed : Placed n s.k n2 (fun c => 0 ≤ c ∧ c < n ∧ ((s.b.cols.get c).start = -1 ∨ c = P)) s.b.cols.get
  total : s.k + weight s.b.cols.get ((alive n s.b.cols.get).erase P) = n2
  score : ∀ c, AliveCol n s.b.cols.get c → c ≠ P → weight s.b.cols.get (pivotSet n s.b.cols.get s.b.a.get c) ≤ (s.b.cols.get c).score

/-- Columns that have been ordered stay as they are. -/
def Frozen (C C' : Int → ColamdCol) : Prop :=
  ∀ c, (C c).start = -1 → (C' c).start = -1 ∧ (C' c).score = (C c).score ∧ (C' c).thickness = (C c).thickness

theorem Frozen.trans {C C' C'' : Int → ColamdCol} (h : Frozen C C') (h' : Frozen C' C'') : Frozen C C'' := fun c hc => by
  obtain ⟨a1, a2, a3⟩ := h c hc
  obtain ⟨b1, b2, b3⟩ := h' c a1
  exact ⟨b1, b2.trans a2, b3.trans a3⟩

/-- Between pivots. -/
structure OrderInv (m n n2 nnz aLen : Int) (s : OrderState) : Prop where
  fits : aLen + n < 2 ^ 31 ∧ 0 ≤ s.garbage ∧ s.garbage ≤ s.k ∧ s.maxDeg ≤ n
  rsize : m ≤ s.b.rows.size
  csize : n ≤ s.b.cols.size
  asize : aLen ≤ s.b.a.size
  hsize : (s.b.head.size : Int) = n + 1
  free : s.pfree ≤ aLen
  pattern : ∃ top, Pattern m n top s.pfree s.b.rows.get s.b.cols.get s.b.a.get ∧ top ≤ nnz
  weights : Weights m n s.tagMark s.b.rows.get s.b.cols.get s.b.a.get
  tag : 1 ≤ s.tagMark
  degs : ∀ r, AliveRow m s.b.rows.get r → (s.b.rows.get r).degree ≤ s.maxDeg
  maxDeg : 0 ≤ s.maxDeg
  lists : DegLists n (AliveCol n s.b.cols.get) s.b.head.get (fun c => (s.b.cols.get c).score) (fun c => (s.b.cols.get c).prev)
    (fun c => (s.b.cols.get c).next)
  min0 : 0 ≤ s.minScore
  minLe : ∀ c, AliveCol n s.b.cols.get c → s.minScore ≤ (s.b.cols.get c).score
  groups : ∃ root, Groups n s.b.cols.get root
  k0 : 0 ≤ s.k
  n2Le : n2 ≤ n
  placed : Placed n s.k n2 (fun c => 0 ≤ c ∧ c < n ∧ (s.b.cols.get c).start = -1) s.b.cols.get
  total : s.k + weight s.b.cols.get (alive n s.b.cols.get) = n2
  score : ∀ c, AliveCol n s.b.cols.get c → weight s.b.cols.get (pivotSet n s.b.cols.get s.b.a.get c) ≤ (s.b.cols.get c).score

/-- What the elimination of pivot `P` does to the pattern. `R2` are the rows after the set differences. -/
structure Pivoted (n n2 tag pfree k : Int) (R2 : Int → ColamdRow) (C : Int → ColamdCol) (A : Int → Int) (P : Int) (pivotRow : Int)
    (R' : Int → ColamdRow) (C' : Int → ColamdCol) (A' : Int → Int) (k' degree' : Int) : Prop where
  k : k' = k + weight C ((pivotSet n C A P).filter (fun d => keptRows R2 C A d = ∅))
  degree : degree' = weight C ((pivotSet n C A P).filter (fun d => keptRows R2 C A d ≠ ∅))
  other : ∀ c, c ∉ pivotSet n C A P → c ≠ P → C' c = { C c with prev := (C' c).prev, next := (C' c).next }
  pivot : (C' P).start = -1
  pivotKeeps : (C' P).score = (C P).score ∧ (C' P).thickness = (C P).thickness
  dead : ∀ c ∈ pivotSet n C A P, keptRows R2 C A c = ∅ → (C' c).start = -1
  kept : ∀ c ∈ pivotSet n C A P, keptRows R2 C A c ≠ ∅ → 0 ≤ (C' c).start → (C' c).start = (C c).start ∧ (C' c).length = (keptRows R2 C A c).card + 1 ∧
    (C' c).score = min (n - k' - (C' c).thickness) (keptScore n tag R2 C A c + degree' - (C' c).thickness)
  groups : ∃ root, Groups n C' root
  placed : Placed n k' n2 (fun c => 0 ≤ c ∧ c < n ∧ (C' c).start = -1) C'
  sum : ∀ X : Int → Prop, (∀ c ∈ pivotSet n C A P, ∀ d ∈ pivotSet n C A P, keptRows R2 C A c = keptRows R2 C A d → (X c ↔ X d)) →
    ∑ c ∈ alive n C', (if X c then (C' c).thickness else 0) =
      ∑ c ∈ (alive n C).filter (fun c => c ≠ P ∧ (c ∈ pivotSet n C A P → keptRows R2 C A c ≠ ∅)), (if X c then (C c).thickness else 0)
  held : ∀ c ∈ pivotSet n C A P, keptRows R2 C A c ≠ ∅ → 0 ≤ (C' c).start →
    Holds A' (C c).start ((keptRows R2 C A c).card + 1) (insert pivotRow (keptRows R2 C A c))
  afar : ∀ i, i < pfree → (∀ d ∈ pivotSet n C A P, i < (C d).start ∨ (C d).start + (keptRows R2 C A d).card < i) → A' i = A i
  cells : ∀ i, 0 ≤ i → i < pfree + (pivotSet n C A P).card → 0 ≤ A' i
  row : Holds A' pfree ((pivotSet n C A P).filter (fun d => 0 ≤ (C' d).start)).card ((pivotSet n C A P).filter (fun d => 0 ≤ (C' d).start))
  rowsOther : ∀ r, r ≠ pivotRow ∨ degree' ≤ 0 → R' r = { R2 r with mark := (R' r).mark } ∧ (0 ≤ (R' r).mark ↔ 0 ≤ (R2 r).mark)
  rowPivot : 0 < degree' → R' pivotRow = ⟨pfree, ((pivotSet n C A P).filter (fun d => 0 ≤ (C' d).start)).card, degree', 0⟩ ∧ InCol C A P pivotRow

/-- `P` is a column in use with the least score. -/
def Least (n : Int) (C : Int → ColamdCol) (P : Int) : Prop := AliveCol n C P ∧ ∀ c, AliveCol n C c → (C P).score ≤ (C c).score

namespace Pivoted
variable {n2 k : Int} {pivotRow : Int} {R' : Int → ColamdRow} {C' : Int → ColamdCol} {A' : Int → Int} {k' degree' : Int}

theorem alive_iff (g : Pivoted n n2 tag pfree k (differenced aggressive n tag R C A P) C A P pivotRow R' C' A' k' degree') (c : Int) :
    AliveCol n C' c ↔ AliveCol n C c ∧ c ≠ P ∧ (c ∈ pivotSet n C A P → keptRows (differenced aggressive n tag R C A P) C A c ≠ ∅ ∧ 0 ≤ (C' c).start) := by
  constructor
  · intro hc
    have hcP : c ≠ P := fun q => by
      have := g.pivot
      rw [← q] at this
      have := hc.2.2
      omega
    by_cases hQ : c ∈ pivotSet n C A P
    · refine ⟨(mem_pivotSet.1 hQ).1, hcP, fun _ => ⟨fun q => ?_, hc.2.2⟩⟩
      have := g.dead c hQ q
      have := hc.2.2
      omega
    · have e : (C' c).start = (C c).start := by rw [g.other c hQ hcP]
      refine ⟨⟨hc.1, hc.2.1, ?_⟩, hcP, fun q => absurd q hQ⟩
      rw [← e]; exact hc.2.2
  · rintro ⟨hc, hcP, h⟩
    refine ⟨hc.1, hc.2.1, ?_⟩
    by_cases hQ : c ∈ pivotSet n C A P
    · exact (h hQ).2
    · rw [g.other c hQ hcP]; exact hc.2.2

theorem inCol_other (hp : Pattern m n top pfree R C A) (g : Pivoted n n2 tag pfree k (differenced aggressive n tag R C A P) C A P pivotRow R' C' A' k' degree') {c : Int}
    (hc : AliveCol n C c) (hcP : c ≠ P) (hQ : c ∉ pivotSet n C A P) :
    (∀ i, (C c).start ≤ i → i < (C c).start + (C c).length → A' i = A i) ∧ ∀ r, InCol C' A' c r ↔ InCol C A c r := by
  have hl := hp.colLen c hc
  have htf := hp.topFree
  have hcell : ∀ i, (C c).start ≤ i → i < (C c).start + (C c).length → A' i = A i := by
    intro i h1 h2
    refine g.afar i (by omega) (fun d hd => ?_)
    have := hp.colDisj hc (mem_pivotSet.1 hd).1 (fun q => hQ (q ▸ hd))
    have := kept_lt (tag := tag) (aggressive := aggressive) hp hd
    omega
  refine ⟨hcell, fun r => ?_⟩
  unfold InCol
  have e1 : (C' c).start = (C c).start := by rw [g.other c hQ hcP]
  have e2 : (C' c).length = (C c).length := by rw [g.other c hQ hcP]
  rw [e1, e2]
  exact has_congr hcell

theorem inCol_kept (g : Pivoted n n2 tag pfree k (differenced aggressive n tag R C A P) C A P pivotRow R' C' A' k' degree') {c : Int}
    (hQ : c ∈ pivotSet n C A P) (hc : AliveCol n C' c) (r : Int) :
    InCol C' A' c r ↔ r = pivotRow ∨ (InCol C A c r ∧ 0 ≤ (differenced aggressive n tag R C A P r).mark) := by
  obtain ⟨_, _, h3⟩ := (g.alive_iff c).1 hc
  obtain ⟨h4, h5⟩ := h3 hQ
  obtain ⟨k1, k2, k3⟩ := g.kept c hQ h4 h5
  unfold InCol
  rw [k1, k2, (g.held c hQ h4 h5).2.2, Finset.mem_insert, mem_keptRows]
  rfl

theorem degree_pos (hw : Weights m n tag R C A) (g : Pivoted n n2 tag pfree k (differenced aggressive n tag R C A P) C A P pivotRow R' C' A' k' degree') {c : Int}
    (hQ : c ∈ pivotSet n C A P) (hc : AliveCol n C' c) : 0 < degree' := by
  obtain ⟨_, _, h3⟩ := (g.alive_iff c).1 hc
  rw [g.degree]
  refine Finset.sum_pos (fun d hd => ?_) ⟨c, Finset.mem_filter.2 ⟨hQ, (h3 hQ).1⟩⟩
  have := hw.thick d (mem_pivotSet.1 (Finset.mem_filter.1 hd).1).1
  omega

theorem row_iff (hp : Pattern m n top pfree R C A) (hP : AliveCol n C P) (g : Pivoted n n2 tag pfree k (differenced aggressive n tag R C A P) C A P pivotRow R' C' A' k' degree')
    (r : Int) : AliveRow m R' r ↔ (r = pivotRow ∧ 0 < degree') ∨ ((r ≠ pivotRow ∨ degree' ≤ 0) ∧ AliveRow m (differenced aggressive n tag R C A P) r) := by
  by_cases hr : r = pivotRow ∧ 0 < degree'
  · obtain ⟨rfl, hd⟩ := hr
    obtain ⟨h1, h2⟩ := g.rowPivot hd
    have hal := hp.colRow P hP r h2
    simp only [hd, and_self, true_or, iff_true]
    refine ⟨hal.1, hal.2.1, ?_⟩
    rw [h1]
  · have hr' : r ≠ pivotRow ∨ degree' ≤ 0 := by
      by_contra hcon
      rw [not_or, not_not] at hcon
      exact hr ⟨hcon.1, by omega⟩
    obtain ⟨h1, h2⟩ := g.rowsOther r hr'
    simp only [hr, false_or, hr', true_and]
    unfold AliveRow
    rw [h2]

theorem pattern (hp : Pattern m n top pfree R C A) (hw : Weights m n tag R C A) (htag : 1 ≤ tag) (hP : AliveCol n C P)
    (g : Pivoted n n2 tag pfree k (differenced aggressive n tag R C A P) C A P pivotRow R' C' A' k' degree') (hsf : pfree + (pivotSet n C A P).card < 2 ^ 31) :
    Pattern m n top (pfree + (pivotSet n C A P).card) R' C' A' := by
  have htf := hp.topFree
  have hlen : ∀ c, AliveCol n C' c → AliveCol n C c ∧ (C' c).start = (C c).start ∧ 0 ≤ (C' c).length ∧ (C' c).length ≤ (C c).length := by
    intro c hc
    obtain ⟨h1, h2, h3⟩ := (g.alive_iff c).1 hc
    by_cases hQ : c ∈ pivotSet n C A P
    · obtain ⟨h4, h5⟩ := h3 hQ
      obtain ⟨k1, k2, k3⟩ := g.kept c hQ h4 h5
      have := kept_lt (tag := tag) (aggressive := aggressive) hp hQ
      exact ⟨h1, k1, by omega, by omega⟩
    · have := hp.colLen c h1
      rw [g.other c hQ h2]
      exact ⟨h1, rfl, this.1, le_refl _⟩
  -- the cells of rows do not change
  have hcell : ∀ i, top ≤ i → i < pfree → A' i = A i := fun i h1 h2 => g.afar i h2 (fun d hd => by
    have := kept_lt (tag := tag) (aggressive := aggressive) hp hd
    have := hp.colLen d (mem_pivotSet.1 hd).1
    omega)
  have hdiff : ∀ r, AliveRow m (differenced aggressive n tag R C A P) r → AliveRow m R r ∧ ¬ InCol C A P r := fun r hr => by
    obtain ⟨h1, h2⟩ := diff_alive hr.2.2
    exact ⟨⟨hr.1, hr.2.1, h2⟩, h1⟩
  have hrow : ∀ r, AliveRow m R' r → ¬ (r = pivotRow ∧ 0 < degree') → AliveRow m R r ∧ ¬ InCol C A P r ∧ AliveRow m (differenced aggressive n tag R C A P) r ∧
      (R' r).start = (R r).start ∧ (R' r).length = (R r).length := fun r hr hne => by
    rcases (g.row_iff hp hP r).1 hr with q | ⟨q1, q2⟩
    · exact absurd q hne
    · obtain ⟨h1, _⟩ := g.rowsOther r q1
      rw [h1]
      exact ⟨(hdiff r q2).1, (hdiff r q2).2, q2, rfl, rfl⟩
  have hpiv : ∀ r, r = pivotRow ∧ 0 < degree' → (R' r).start = pfree ∧ (R' r).length = ((pivotSet n C A P).filter (fun d => 0 ≤ (C' d).start)).card := fun r hr => by
    rw [hr.1, (g.rowPivot hr.2).1]
    exact ⟨rfl, rfl⟩
  have hcard : ((pivotSet n C A P).filter (fun d => 0 ≤ (C' d).start)).card ≤ (pivotSet n C A P).card := Finset.card_filter_le _ _
  refine ⟨hp.rows0, hp.cols0, hp.top0, by omega, hp.small, fun c hc => ?_, fun c d hc hd hlt => ?_, fun r hr => ?_, fun r s hr hs hne => ?_, g.cells, fun c hc => ?_, fun r hr => ?_,
    fun c hc r hr => ?_, fun r hr c hc => ?_, fun c r hc hr => ?_⟩
  · obtain ⟨h1, h2, h3, h4⟩ := hlen c hc
    have := hp.colLen c h1
    omega
  · obtain ⟨h1, h2, h3, h4⟩ := hlen c hc
    obtain ⟨h1', h2', h3', h4'⟩ := hlen d hd
    have := hp.colOrd c d h1 h1' hlt
    omega
  · by_cases hrp : r = pivotRow ∧ 0 < degree'
    · obtain ⟨e1, e2⟩ := hpiv r hrp
      omega
    · obtain ⟨h1, _, _, e1, e2⟩ := hrow r hr hrp
      have := hp.rowLen r h1
      omega
  · by_cases hrp : r = pivotRow ∧ 0 < degree'
    · obtain ⟨e1, e2⟩ := hpiv r hrp
      have hsp : ¬ (s = pivotRow ∧ 0 < degree') := fun q => hne (by rw [hrp.1, q.1])
      obtain ⟨h1, _, _, f1, f2⟩ := hrow s hs hsp
      have := hp.rowLen s h1
      omega
    · obtain ⟨h1, _, _, e1, e2⟩ := hrow r hr hrp
      by_cases hsp : s = pivotRow ∧ 0 < degree'
      · obtain ⟨f1, f2⟩ := hpiv s hsp
        have := hp.rowLen r h1
        omega
      · obtain ⟨h1', _, _, f1, f2⟩ := hrow s hs hsp
        have := hp.rowDisj r s h1 h1' hne
        omega
  · obtain ⟨h1, h2, h3⟩ := (g.alive_iff c).1 hc
    by_cases hQ : c ∈ pivotSet n C A P
    · obtain ⟨h4, h5⟩ := h3 hQ
      obtain ⟨k1, k2, k3⟩ := g.kept c hQ h4 h5
      rw [k1, k2]
      exact (g.held c hQ h4 h5).1
    · have := (g.inCol_other hp h1 h2 hQ).1
      rw [g.other c hQ h2]
      exact (hp.colInj c h1).congr this
  · by_cases hrp : r = pivotRow ∧ 0 < degree'
    · obtain ⟨e1, e2⟩ := hpiv r hrp
      rw [e1, e2]
      exact g.row.1
    · obtain ⟨h1, _, _, e1, e2⟩ := hrow r hr hrp
      have := hp.rowLen r h1
      rw [e1, e2]
      exact (hp.rowInj r h1).congr (fun i i1 i2 => hcell i (by omega) (by omega))
  · obtain ⟨h1, h2, h3⟩ := (g.alive_iff c).1 hc
    rw [g.row_iff hp hP]
    by_cases hQ : c ∈ pivotSet n C A P
    · have hdp := g.degree_pos hw hQ hc
      by_cases hrp : r = pivotRow
      · exact Or.inl ⟨hrp, hdp⟩
      · right
        have hin := ((g.inCol_kept hQ hc r).1 hr).resolve_left hrp
        have := hp.colRow c h1 r hin.1
        exact ⟨Or.inl hrp, this.1, this.2.1, hin.2⟩
    · have hin := ((g.inCol_other hp h1 h2 hQ).2 r).1 hr
      have := hp.colRow c h1 r hin
      right
      refine ⟨?_, this.1, this.2.1, diff_other hw hp htag h1 hQ h2 hin⟩
      by_cases hd : 0 < degree'
      · left
        rintro rfl
        exact hQ (mem_pivotSet.2 ⟨h1, h2, r, (g.rowPivot hd).2, hin⟩)
      · right; omega
  · by_cases hrp : r = pivotRow ∧ 0 < degree'
    · obtain ⟨e1, e2⟩ := hpiv r hrp
      unfold InRow at hc
      rw [e1, e2, g.row.2.2, Finset.mem_filter, mem_pivotSet] at hc
      exact ⟨hc.1.1.1, hc.1.1.2.1⟩
    · obtain ⟨h1, _, _, e1, e2⟩ := hrow r hr hrp
      have := hp.rowLen r h1
      unfold InRow at hc
      rw [e1, e2, has_congr (fun i i1 i2 => hcell i (by omega) (by omega))] at hc
      exact hp.rowCol r h1 c hc
  · obtain ⟨h1, h2, h3⟩ := (g.alive_iff c).1 hc
    by_cases hrp : r = pivotRow ∧ 0 < degree'
    · obtain ⟨e1, e2⟩ := hpiv r hrp
      unfold InRow
      rw [e1, e2, g.row.2.2, Finset.mem_filter]
      by_cases hQ : c ∈ pivotSet n C A P
      · rw [g.inCol_kept hQ hc]
        simp only [hrp.1, true_or, hQ, true_and, true_iff]
        exact hc.2.2
      · rw [(g.inCol_other hp h1 h2 hQ).2]
        simp only [hQ, false_and, iff_false]
        intro hin
        exact hQ (mem_pivotSet.2 ⟨h1, h2, r, by rw [hrp.1]; exact (g.rowPivot hrp.2).2, hin⟩)
    · obtain ⟨r1, r2, r3, e1, e2⟩ := hrow r hr hrp
      have hl := hp.rowLen r r1
      unfold InRow
      rw [e1, e2, has_congr (fun i i1 i2 => hcell i (by omega) (by omega))]
      rw [← InRow, ← hp.sym c r h1 r1]
      by_cases hQ : c ∈ pivotSet n C A P
      · rw [g.inCol_kept hQ hc]
        have hdp := g.degree_pos hw hQ hc
        have : r ≠ pivotRow := fun q => hrp ⟨q, hdp⟩
        simp only [this, false_or, r3.2.2, and_true]
      · exact (g.inCol_other hp h1 h2 hQ).2 r

end Pivoted
end
end Fiksi.Amd
