import Verif.Model.ColamdOrder
import Verif.Proofs.Memory
import Mathlib.Data.Int.Interval
import Mathlib.Algebra.BigOperators.Ring.Finset
import Mathlib.Algebra.Order.BigOperators.Group.Finset
import Mathlib.Combinatorics.Enumerative.DoubleCounting
import Mathlib.Tactic.Ring
/-!
# Minimum degree ordering: the pattern held by the buffers

The functions `R`, `C` and `A` are the contents of the row records, the column records and the index array.
-/
namespace Fiksi.Amd
open Classical

/-- `x` occurs in the `len` cells from `start` on. -/
def Has (A : Int → Int) (start len x : Int) : Prop := ∃ i, start ≤ i ∧ i < start + len ∧ A i = x

/-- The `len` cells from `start` on are distinct. -/
def Distinct (A : Int → Int) (start len : Int) : Prop := ∀ i j, start ≤ i → i < j → j < start + len → A i ≠ A j

/-- The `len` cells from `start` on hold the elements of `S`, each once. -/
def Holds (A : Int → Int) (start len : Int) (S : Finset Int) : Prop := Distinct A start len ∧ 0 ≤ len ∧ ∀ x, Has A start len x ↔ x ∈ S

/-- Column `c` contains row `r`. -/
def InCol (C : Int → ColamdCol) (A : Int → Int) (c r : Int) : Prop := Has A (C c).start (C c).length r

/-- Row `r` contains column `c`. -/
def InRow (R : Int → ColamdRow) (A : Int → Int) (r c : Int) : Prop := Has A (R r).start (R r).length c

/-- Column `c` is in use. -/
def AliveCol (n : Int) (C : Int → ColamdCol) (c : Int) : Prop := 0 ≤ c ∧ c < n ∧ 0 ≤ (C c).start

/-- Row `r` is in use. -/
def AliveRow (m : Int) (R : Int → ColamdRow) (r : Int) : Prop := 0 ≤ r ∧ r < m ∧ 0 ≤ (R r).mark

/-- The columns in use. -/
noncomputable def alive (n : Int) (C : Int → ColamdCol) : Finset Int := (Finset.Ico 0 n).filter (AliveCol n C)

theorem mem_alive {n : Int} {C : Int → ColamdCol} {c : Int} : c ∈ alive n C ↔ AliveCol n C c := by
  simp only [alive, Finset.mem_filter, Finset.mem_Ico, AliveCol]
  tauto

/-- The columns in use that contain row `r`. -/
noncomputable def colsOf (n : Int) (C : Int → ColamdCol) (A : Int → Int) (r : Int) : Finset Int := (alive n C).filter (fun c => InCol C A c r)

theorem mem_colsOf {n : Int} {C : Int → ColamdCol} {A : Int → Int} {r c : Int} : c ∈ colsOf n C A r ↔ AliveCol n C c ∧ InCol C A c r := by
  simp only [colsOf, Finset.mem_filter, mem_alive]

section
variable {A A' : Int → Int} {start len x : Int}

theorem Has.congr (h : Has A start len x) (he : ∀ i, start ≤ i → i < start + len → A' i = A i) : Has A' start len x := by
  obtain ⟨i, h1, h2, h3⟩ := h
  exact ⟨i, h1, h2, by rw [he i h1 h2, h3]⟩

theorem has_congr (he : ∀ i, start ≤ i → i < start + len → A' i = A i) : Has A' start len x ↔ Has A start len x :=
  ⟨fun h => h.congr fun i h1 h2 => (he i h1 h2).symm, fun h => h.congr he⟩

theorem has_zero : ¬ Has A start 0 x := by
  rintro ⟨i, h1, h2, _⟩
  omega

theorem has_succ (h : 0 ≤ len) : Has A start (len + 1) x ↔ Has A start len x ∨ A (start + len) = x := by
  constructor
  · rintro ⟨i, h1, h2, h3⟩
    rcases eq_or_ne i (start + len) with rfl | hne
    · exact Or.inr h3
    · exact Or.inl ⟨i, h1, by omega, h3⟩
  · rintro (⟨i, h1, h2, h3⟩ | h3)
    · exact ⟨i, h1, by omega, h3⟩
    · exact ⟨_, by omega, by omega, h3⟩

theorem Distinct.congr (h : Distinct A start len) (he : ∀ i, start ≤ i → i < start + len → A' i = A i) : Distinct A' start len := by
  intro i j h1 h2 h3
  rw [he i h1 (by omega), he j (by omega) h3]
  exact h i j h1 h2 h3

/-- Cells that are copied elsewhere. -/
theorem has_shift {start' : Int} (he : ∀ j, 0 ≤ j → j < len → A' (start' + j) = A (start + j)) : Has A' start' len x ↔ Has A start len x := by
  constructor
  · rintro ⟨i, h1, h2, h3⟩
    refine ⟨start + (i - start'), by omega, by omega, ?_⟩
    rw [← he _ (by omega) (by omega), ← h3]
    congr 1
    omega
  · rintro ⟨i, h1, h2, h3⟩
    refine ⟨start' + (i - start), by omega, by omega, ?_⟩
    rw [he _ (by omega) (by omega), ← h3]
    congr 1
    omega

theorem Distinct.shift {start' : Int} (h : Distinct A start len) (he : ∀ j, 0 ≤ j → j < len → A' (start' + j) = A (start + j)) :
    Distinct A' start' len := by
  intro i j h1 h2 h3
  have e1 := he (i - start') (by omega) (by omega)
  have e2 := he (j - start') (by omega) (by omega)
  rw [show start' + (i - start') = i by omega] at e1
  rw [show start' + (j - start') = j by omega] at e2
  rw [e1, e2]
  exact h _ _ (by omega) (by omega) (by omega)

variable {S : Finset Int}

theorem Holds.card (h : Holds A start len S) : len = S.card := by
  obtain ⟨h1, h2, h3⟩ := h
  have : S = (Finset.Ico start (start + len)).image A := by
    ext x
    rw [← h3 x]
    simp only [Has, Finset.mem_image, Finset.mem_Ico, and_assoc]
  rw [this, Finset.card_image_of_injOn, Int.card_Ico]
  · omega
  · intro i hi j hj hij
    simp only [Finset.coe_Ico, Set.mem_Ico] at hi hj
    rcases lt_trichotomy i j with hlt | heq | hlt
    · exact absurd hij (h1 i j hi.1 hlt hj.2)
    · exact heq
    · exact absurd hij.symm (h1 j i hj.1 hlt hi.2)

theorem Holds.congr (h : Holds A start len S) (he : ∀ i, start ≤ i → i < start + len → A' i = A i) : Holds A' start len S :=
  ⟨h.1.congr he, h.2.1, fun x => by rw [has_congr he, h.2.2]⟩

theorem Holds.empty (A : Int → Int) (start : Int) : Holds A start 0 ∅ :=
  ⟨fun i j h1 h2 h3 => by omega, le_refl _, fun x => by simp [has_zero]⟩

theorem Holds.mem (h : Holds A start len S) {i : Int} (h1 : start ≤ i) (h2 : i < start + len) : A i ∈ S := (h.2.2 _).1 ⟨i, h1, h2, rfl⟩

/-- One more cell. -/
theorem Holds.push (h : Holds A start len S) (hx : x ∉ S) (he : ∀ i, start ≤ i → i < start + len → A' i = A i) (hn : A' (start + len) = x) :
    Holds A' start (len + 1) (insert x S) := by
  have h' := h.congr he
  refine ⟨fun i j h1 h2 h3 => ?_, by have := h.2.1; omega, fun y => ?_⟩
  · rcases eq_or_ne j (start + len) with rfl | hne
    · rw [hn]
      intro heq
      exact hx (heq ▸ h'.mem h1 h2)
    · exact h'.1 i j h1 h2 (by omega)
  · rw [has_succ h.2.1, h'.2.2, hn, Finset.mem_insert, or_comm, eq_comm]

theorem holds_image (h : Distinct A start len) (h0 : 0 ≤ len) : Holds A start len ((Finset.Ico start (start + len)).image A) :=
  ⟨h, h0, fun x => by simp only [Has, Finset.mem_image, Finset.mem_Ico, and_assoc]⟩

/-- The cells seen so far are all of them at the end. -/
theorem Holds.sub (h : Holds A start len S) {l : Int} (h0 : 0 ≤ l) (hl : l ≤ len) :
    ∃ T ⊆ S, Holds A start l T := by
  refine ⟨_, ?_, holds_image (fun i j h1 h2 h3 => h.1 i j h1 h2 (by omega)) h0⟩
  intro x hx
  simp only [Finset.mem_image, Finset.mem_Ico] at hx
  obtain ⟨i, hi, rfl⟩ := hx
  exact h.mem hi.1 (by omega)

end

/-- The buffers hold a pattern: the columns in use lie in index order below `top`, the rows in use lie between `top` and `pfree`. -/
structure Pattern (m n top pfree : Int) (R : Int → ColamdRow) (C : Int → ColamdCol) (A : Int → Int) : Prop where
  rows0 : 0 ≤ m
  cols0 : 0 ≤ n
  top0 : 0 ≤ top
  topFree : top ≤ pfree
  small : m < 2 ^ 31 ∧ 4 * n + 8 < 2 ^ 31 ∧ top < 2 ^ 31
  colLen : ∀ c, AliveCol n C c → 0 ≤ (C c).length ∧ (C c).start + (C c).length ≤ top
  colOrd : ∀ c d, AliveCol n C c → AliveCol n C d → c < d → (C c).start + (C c).length ≤ (C d).start
  rowLen : ∀ r, AliveRow m R r → top ≤ (R r).start ∧ 0 ≤ (R r).length ∧ (R r).start + (R r).length ≤ pfree
  rowDisj : ∀ r s, AliveRow m R r → AliveRow m R s → r ≠ s →
    (R r).start + (R r).length ≤ (R s).start ∨ (R s).start + (R s).length ≤ (R r).start
  cells : ∀ i, 0 ≤ i → i < pfree → 0 ≤ A i
  colInj : ∀ c, AliveCol n C c → Distinct A (C c).start (C c).length
  rowInj : ∀ r, AliveRow m R r → Distinct A (R r).start (R r).length
  colRow : ∀ c, AliveCol n C c → ∀ r, InCol C A c r → AliveRow m R r
  rowCol : ∀ r, AliveRow m R r → ∀ c, InRow R A r c → 0 ≤ c ∧ c < n
  sym : ∀ c r, AliveCol n C c → AliveRow m R r → (InCol C A c r ↔ InRow R A r c)

namespace Pattern
variable {m n top pfree : Int} {R : Int → ColamdRow} {C : Int → ColamdCol} {A : Int → Int}

/-- Different columns do not overlap. -/
theorem colDisj (h : Pattern m n top pfree R C A) {c d : Int} (hc : AliveCol n C c) (hd : AliveCol n C d) (hne : c ≠ d) :
    (C c).start + (C c).length ≤ (C d).start ∨ (C d).start + (C d).length ≤ (C c).start := by
  rcases lt_or_gt_of_ne hne with hlt | hlt
  · exact Or.inl (h.colOrd c d hc hd hlt)
  · exact Or.inr (h.colOrd d c hd hc hlt)

theorem entryRow (h : Pattern m n top pfree R C A) {c : Int} (hc : AliveCol n C c) {i : Int} (h1 : (C c).start ≤ i)
    (h2 : i < (C c).start + (C c).length) : AliveRow m R (A i) := h.colRow c hc _ ⟨i, h1, h2, rfl⟩

theorem entryCol (h : Pattern m n top pfree R C A) {r : Int} (hr : AliveRow m R r) {i : Int} (h1 : (R r).start ≤ i)
    (h2 : i < (R r).start + (R r).length) : 0 ≤ A i ∧ A i < n := h.rowCol r hr _ ⟨i, h1, h2, rfl⟩

end Pattern

end Fiksi.Amd
