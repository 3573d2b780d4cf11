import Verif.Proofs.EliminationTree
import Verif.Props.Sparse
/-!
# The elimination tree (C39)
-/
namespace Fiksi

open Spec

/-- C39: in both variants the computation succeeds, and the parent of a column `k` is the smallest larger column that `k` reaches through columns
not larger than it. -/
theorem C39_parent (symmetric : Bool) (a : SparseStructure) (ha : WellFormed a) :
    ∃ parents, eliminationTree symmetric a = .ok parents ∧ parents.length = a.ncols ∧
      ∀ k p : Nat, parents[k]? = some (some p) ↔ k < p ∧ p < a.ncols ∧ Reach (Meet symmetric a) p k p ∧
        ∀ j, k < j → j < p → ¬ Reach (Meet symmetric a) j k j := by
  obtain ⟨parents, h1, h2⟩ := eliminationTree_spec symmetric ha
  refine ⟨parents, h1, h2.len, fun k p => ⟨?_, ?_⟩⟩
  · intro hp
    have hpn := h2.bound k p hp
    have hkp := h2.up k p hp
    refine ⟨hkp, hpn, ((h2.below_iff hpn).1 (.parent hp)).2, ?_⟩
    intro j hkj hjp hr
    have hb := (h2.below_iff (by omega)).2 ⟨hkj, hr⟩
    cases hb with
    | parent h =>
      rw [hp] at h
      simp only [Option.some.injEq] at h
      omega
    | step h hb =>
      rw [hp] at h
      simp only [Option.some.injEq] at h
      subst h
      have := Below_up h2.up hb
      omega
  · rintro ⟨hkp, hpn, hr, hmin⟩
    have hb := (h2.below_iff hpn).2 ⟨hkp, hr⟩
    cases hb with
    | parent h => exact h
    | @step _ q _ h hb =>
      have hqp := Below_up h2.up hb
      exact absurd ((h2.below_iff (by omega)).1 (.parent h)).2 (hmin q (h2.up k q h) hqp)

/-- C39: the columns without a parent are those that reach no larger column in this way. -/
theorem C39_root (symmetric : Bool) (a : SparseStructure) (ha : WellFormed a) :
    ∃ parents, eliminationTree symmetric a = .ok parents ∧
      ∀ k : Nat, parents[k]? = some none ↔ k < a.ncols ∧ ∀ j, k < j → j < a.ncols → ¬ Reach (Meet symmetric a) j k j := by
  obtain ⟨parents, h1, h2⟩ := eliminationTree_spec symmetric ha
  refine ⟨parents, h1, fun k => ⟨?_, ?_⟩⟩
  · intro hk
    refine ⟨by rw [← h2.len]; exact (List.getElem?_eq_some_iff.1 hk).1, ?_⟩
    intro j hkj hj hr
    have hb := (h2.below_iff hj).2 ⟨hkj, hr⟩
    cases hb with
    | parent h => rw [hk] at h; simp at h
    | step h _ => rw [hk] at h; simp at h
  · rintro ⟨hk, hno⟩
    have hkl : k < parents.length := by rw [h2.len]; exact hk
    cases ho : parents[k] with
    | none => rw [List.getElem?_eq_getElem hkl, ho]
    | some p =>
      have hp : parents[k]? = some (some p) := by rw [List.getElem?_eq_getElem hkl, ho]
      have hpn := h2.bound k p hp
      exact absurd ((h2.below_iff hpn).1 (.parent hp)).2 (hno p (h2.up k p hp) hpn)

/-- C39: the ancestors of a column are all the larger columns that it reaches through columns not larger than them: the columns whose elimination
depends on it. -/
theorem C39_ancestors (symmetric : Bool) (a : SparseStructure) (ha : WellFormed a) :
    ∃ parents, eliminationTree symmetric a = .ok parents ∧ IsForest parents ∧
      ∀ k c, c < a.ncols → (Below parents k c ↔ k < c ∧ Reach (Meet symmetric a) c k c) := by
  obtain ⟨parents, h1, h2⟩ := eliminationTree_spec symmetric ha
  exact ⟨parents, h1, h2.isForest, fun k c hc => h2.below_iff hc⟩

/-- A structure with columns `{0}`, `{0, 2}`, `{1}`, `{1, 2}`, `{3}`. -/
def etreeExample : SparseStructure := ⟨4, 5, [0, 0, 2, 1, 1, 2, 3], [0, 1, 3, 4, 6, 7]⟩

theorem etreeExample_ok : WellFormed etreeExample := (C32_accepted_iff 4 5 [0, 0, 2, 1, 1, 2, 3] [0, 1, 3, 4, 6, 7] _).1 (by decide +kernel) |>.2

/-- The hypothesis of C39 is met by a structure whose tree is not a path. -/
theorem C39_case : WellFormed etreeExample ∧ eliminationTree false etreeExample = .ok [some 1, some 3, some 3, none, none] :=
  ⟨etreeExample_ok, by decide +kernel⟩

end Fiksi
