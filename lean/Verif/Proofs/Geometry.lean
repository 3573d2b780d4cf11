import Verif.Spec.Geometry
import Verif.Proofs.Real
import Verif.Proofs.Reads
import Mathlib.Analysis.InnerProductSpace.Basic
/-! # Lemmas relating the residual formulas to plane geometry -/
namespace Fiksi

open Complex Spec Spec.Geo

theorem crossC_zero_iff {u : ℂ} (hu : u ≠ 0) (v : ℂ) : crossC u v = 0 ↔ ∃ t : ℝ, v = t * u := by
  constructor
  · intro h
    have hn : u.re * u.re + u.im * u.im ≠ 0 := by
      rw [← normSq_apply]; exact fun h' => hu (normSq_eq_zero.1 h')
    refine ⟨(u.re * v.re + u.im * v.im) / (u.re * u.re + u.im * u.im), ?_⟩
    unfold crossC at h
    apply Complex.ext
    · rw [re_ofReal_mul, div_mul_eq_mul_div, eq_div_iff hn]
      linear_combination -u.im * h
    · rw [im_ofReal_mul, div_mul_eq_mul_div, eq_div_iff hn]
      linear_combination u.re * h
  · rintro ⟨t, rfl⟩
    simp [crossC]; ring

theorem onLine_iff {a b : ℂ} (h : a ≠ b) (p : ℂ) : crossC (b - a) (p - a) = 0 ↔ OnLine p a b := by
  rw [crossC_zero_iff (sub_ne_zero.2 h.symm)]
  constructor
  · rintro ⟨t, ht⟩; exact ⟨t, by rw [← ht]; ring⟩
  · rintro ⟨t, ht⟩; exact ⟨t, by rw [ht]; ring⟩

theorem parallel_iff {a b : ℂ} (h : a ≠ b) (c d : ℂ) : crossC (b - a) (d - c) = 0 ↔ Parallel a b c d :=
  crossC_zero_iff (sub_ne_zero.2 h.symm) _

theorem crossC_add (u v w : ℂ) : crossC u (v + w) = crossC u v + crossC u w := by simp [crossC]; ring
theorem crossC_sub (u v w : ℂ) : crossC u (v - w) = crossC u v - crossC u w := by simp [crossC]; ring
theorem crossC_smul (u : ℂ) (t : ℝ) (v : ℂ) : crossC u (t * v) = t * crossC u v := by simp [crossC]; ring
theorem crossC_self (u : ℂ) : crossC u u = 0 := by simp [crossC]; ring

theorem norm_sq_re_im (u : ℂ) : ‖u‖ * ‖u‖ = u.re * u.re + u.im * u.im := by
  rw [← normSq_apply, normSq_eq_norm_sq]; ring

theorem crossC_normal {u : ℂ} (hu : u ≠ 0) : crossC u (I * u / ‖u‖) = ‖u‖ := by
  have hn : ‖u‖ ≠ 0 := by simpa using hu
  have : I * u / (‖u‖ : ℂ) = ((1 / ‖u‖ : ℝ) : ℂ) * (I * u) := by push_cast; field_simp
  rw [this, crossC_smul]
  have h2 : crossC u (I * u) = ‖u‖ * ‖u‖ := by rw [norm_sq_re_im]; simp [crossC]
  rw [h2]
  field_simp

theorem signedDistance_iff {a b : ℂ} (h : a ≠ b) (p : ℂ) (s : ℝ) :
    crossC (b - a) (p - a) / ‖b - a‖ = s ↔ AtSignedDistance p a b s := by
  have hu : b - a ≠ 0 := sub_ne_zero.2 h.symm
  have hn : ‖b - a‖ ≠ 0 := by simpa using hu
  set n : ℂ := I * (b - a) / ‖b - a‖ with hnn
  have hc : crossC (b - a) n = ‖b - a‖ := crossC_normal hu
  constructor
  · intro hs
    refine ⟨p - s * n, ?_, by ring⟩
    rw [← onLine_iff h]
    have : p - s * n - a = (p - a) - s * n := by ring
    rw [this, crossC_sub, crossC_smul, hc, ← hs]
    field_simp
    ring
  · rintro ⟨foot, hf, hp⟩
    rw [← onLine_iff h] at hf
    have : p - a = (foot - a) + s * n := by rw [hp]; ring
    rw [this, crossC_add, crossC_smul, hc, hf]
    field_simp
    ring

/-- `‖u × v‖ ≤ ‖u‖ ‖v‖`. -/
theorem abs_crossC_le (u v : ℂ) : |crossC u v| ≤ ‖u‖ * ‖v‖ := by
  rw [crossC_eq]
  calc _ ≤ ‖(starRingEnd ℂ) u * v‖ := abs_im_le_norm _
    _ = _ := by rw [norm_mul, norm_conj]

theorem infDist_line {a b : ℂ} (h : a ≠ b) (c : ℂ) :
    Metric.infDist c {p | OnLine p a b} = |crossC (b - a) (c - a)| / ‖b - a‖ := by
  have hu : b - a ≠ 0 := sub_ne_zero.2 h.symm
  have hn : 0 < ‖b - a‖ := by simpa using hu
  obtain ⟨foot, hf, hc⟩ := (signedDistance_iff h c _).1 rfl
  set s := crossC (b - a) (c - a) / ‖b - a‖ with hs
  have hd : dist c foot = |s| := by
    rw [dist_eq_norm, hc, add_sub_cancel_left, norm_mul, norm_div, norm_mul]
    simp [hn.ne']
  have habs : |crossC (b - a) (c - a)| / ‖b - a‖ = |s| := by rw [hs, abs_div, abs_norm]
  rw [habs]
  apply le_antisymm
  · rw [← hd]
    exact Metric.infDist_le_dist_of_mem hf
  · rw [Metric.le_infDist ⟨foot, hf⟩]
    intro p hp
    have hp : OnLine p a b := hp
    rw [← onLine_iff h] at hp
    rw [← habs, div_le_iff₀ hn, dist_eq_norm]
    have : c - a = (c - p) + (p - a) := by ring
    rw [this, crossC_add, hp, add_zero, mul_comm]
    exact abs_crossC_le _ _

/-! ## Values of a represented store -/

section
variable {st : Store ℝ}

theorem pointIs_iff {p : Nat} {x y : ℝ} (h : st.elems[p]? = some (.point x y)) (P : ℂ) : PointIs st p P ↔ P = ⟨x, y⟩ := by
  simp only [PointIs, Store.value, h, Option.some.injEq, ElementValue.point.injEq]
  constructor
  · rintro ⟨h1, h2⟩; exact Complex.ext h1.symm h2.symm
  · rintro rfl; exact ⟨rfl, rfl⟩

theorem lineIs_iff {l p q : Nat} {x y z w : ℝ} (h : st.elems[l]? = some (.line p q)) (hp : st.elems[p]? = some (.point x y))
    (hq : st.elems[q]? = some (.point z w)) (A B : ℂ) : LineIs st l A B ↔ A = ⟨x, y⟩ ∧ B = ⟨z, w⟩ := by
  simp only [LineIs, Store.value, h, Store.pointAt, hp, hq, Option.some.injEq, ElementValue.line.injEq]
  constructor
  · rintro ⟨h1, h2, h3, h4⟩; exact ⟨Complex.ext h1.symm h2.symm, Complex.ext h3.symm h4.symm⟩
  · rintro ⟨rfl, rfl⟩; exact ⟨rfl, rfl, rfl, rfl⟩

theorem circleIs_iff {l p q : Nat} {x y v : ℝ} (h : st.elems[l]? = some (.circle p q)) (hp : st.elems[p]? = some (.point x y))
    (hq : st.elems[q]? = some (.length v)) (A : ℂ) (r : ℝ) : CircleIs st l A r ↔ A = ⟨x, y⟩ ∧ r = v := by
  simp only [CircleIs, Store.value, h, Store.pointAt, Store.lengthAt, hp, hq, Option.some.injEq, ElementValue.circle.injEq]
  constructor
  · rintro ⟨h1, h2, h3⟩; exact ⟨Complex.ext h1.symm h2.symm, h3.symm⟩
  · rintro ⟨rfl, rfl⟩; exact ⟨rfl, rfl, rfl⟩

theorem norm_sub_swap_zero {a b : ℝ} : a - b = 0 ↔ a = b := sub_eq_zero

end

end Fiksi
