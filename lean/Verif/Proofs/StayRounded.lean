import Verif.Proofs.RoundedSums
import Verif.Props.Rounding
import Verif.Proofs.Stay
import Verif.Spec.Size
/-!
# The residuals of the scaled problem in rounded arithmetic
-/
namespace Fiksi

open Spec Spec.Geo

/-- A length keeps its value if the coordinates of the vector change little. -/
theorem norm_near {ρ X Y X' Y' ε : ℝ} (hρ : 0 ≤ ρ) (hX : |X' - ρ * X| ≤ ε) (hY : |Y' - ρ * Y| ≤ ε) :
    |‖(⟨X', Y'⟩ : ℂ)‖ - ρ * ‖(⟨X, Y⟩ : ℂ)‖| ≤ 2 * ε := by
  have h1 : ρ * ‖(⟨X, Y⟩ : ℂ)‖ = ‖(⟨ρ * X, ρ * Y⟩ : ℂ)‖ := by
    have h2 : (⟨ρ * X, ρ * Y⟩ : ℂ) = (ρ : ℂ) * ⟨X, Y⟩ := by apply Complex.ext <;> simp
    rw [h2, norm_mul, Complex.norm_real, Real.norm_eq_abs, abs_of_nonneg hρ]
  rw [h1]
  refine (abs_norm_sub_norm_le _ _).trans ((Complex.norm_le_abs_re_add_abs_im _).trans ?_)
  simp only [sub_mk]
  linarith

theorem norm_le_sum {X Y B : ℝ} (hX : |X| ≤ B) (hY : |Y| ≤ B) : ‖(⟨X, Y⟩ : ℂ)‖ ≤ 2 * B :=
  (Complex.norm_le_abs_re_add_abs_im _).trans (by show |X| + |Y| ≤ 2 * B; linarith)

/-- Products of differences that change little. -/
theorem product_near {ρ X Y X' Y' : ℝ} (hX : |X' - ρ * X| ≤ 164 / 10 ^ 15) (hY : |Y' - ρ * Y| ≤ 164 / 10 ^ 15) (bX : |ρ * X| ≤ 1464) (bY : |ρ * Y| ≤ 1464) :
    |X' * Y' - ρ ^ 2 * (X * Y)| ≤ 481 / 10 ^ 12 ∧ |X' * Y'| ≤ 2144000 := by
  have e : X' * Y' - ρ ^ 2 * (X * Y) = (X' - ρ * X) * (Y' - ρ * Y) + (X' - ρ * X) * (ρ * Y) + ρ * X * (Y' - ρ * Y) := by ring
  have h1 : |X' * Y' - ρ ^ 2 * (X * Y)| ≤ 481 / 10 ^ 12 := by
    rw [e]
    refine (abs_add_three _ _ _).trans ?_
    rw [abs_mul, abs_mul, abs_mul (ρ * X)]
    have k1 := mul_le_mul hX hY (abs_nonneg _) (by norm_num)
    have k2 := mul_le_mul hX bY (abs_nonneg _) (by norm_num)
    have k3 := mul_le_mul bX hY (abs_nonneg _) (by norm_num)
    norm_num at k1 k2 k3 ⊢
    linarith
  refine ⟨h1, ?_⟩
  have h2 : |ρ ^ 2 * (X * Y)| ≤ 1464 * 1464 := by
    rw [show ρ ^ 2 * (X * Y) = ρ * X * (ρ * Y) by ring, abs_mul]
    exact mul_le_mul bX bY (abs_nonneg _) (by norm_num)
  have h3 := abs_sub_abs_le_abs_sub (X' * Y') (ρ ^ 2 * (X * Y))
  norm_num only at h1 h2 ⊢
  linarith

section
variable {A : Arith} {u : ℝ} (hA : A.Accurate u) (hu : u ≤ 1 / 2 ^ 53)
include hA hu

theorem fl_scaling {x ρ : ℝ} (h : |ρ * x| ≤ 732) : |A.rnd (x * ρ) - ρ * x| ≤ 82 / 10 ^ 15 := by
  have h1 := hA.rnd (x * ρ)
  rw [mul_comm x ρ] at h1 ⊢
  refine h1.trans ((mul_le_mul hu h (abs_nonneg _) (by norm_num)).trans ?_)
  norm_num

variable {k : Fl A} (hk : 0 ≤ k.val)
include hk

omit hk in
theorem scaled_difference {x y : Fl A} (hx : |k.val * x.val| ≤ 732) (hy : |k.val * y.val| ≤ 732) :
    |((x * k).val - (y * k).val) - k.val * (x.val - y.val)| ≤ 164 / 10 ^ 15 ∧ |k.val * (x.val - y.val)| ≤ 1464 := by
  have h1 := abs_le.1 (fl_scaling hA hu hx)
  have h2 := abs_le.1 (fl_scaling hA hu hy)
  have h3 := abs_le.1 hx
  have h4 := abs_le.1 hy
  have e1 : (x * k).val = A.rnd (x.val * k.val) := rfl
  have e2 : (y * k).val = A.rnd (y.val * k.val) := rfl
  rw [e1, e2]
  constructor
  · rw [abs_le]
    constructor <;> linarith
  · rw [abs_le]
    constructor <;> linarith

/-- The distance of two scaled points. -/
theorem scaled_norm {a b c e : Fl A} (ha : |k.val * a.val| ≤ 732) (hb : |k.val * b.val| ≤ 732) (hc : |k.val * c.val| ≤ 732) (he : |k.val * e.val| ≤ 732) :
    |√(((a * k).val - (c * k).val) * ((a * k).val - (c * k).val) + ((b * k).val - (e * k).val) * ((b * k).val - (e * k).val)) - k.val * dist (⟨a.val, b.val⟩ : ℂ) ⟨c.val, e.val⟩| ≤ 328 / 10 ^ 15 ∧
      √(((a * k).val - (c * k).val) * ((a * k).val - (c * k).val) + ((b * k).val - (e * k).val) * ((b * k).val - (e * k).val)) ≤ 2930 := by
  obtain ⟨h1, h2⟩ := scaled_difference hA hu ha hc
  obtain ⟨h3, h4⟩ := scaled_difference hA hu hb he
  rw [sqrt_sq_add, Complex.dist_eq, sub_mk]
  constructor
  · refine (norm_near hk h1 h3).trans (by norm_num)
  · have h5 := abs_sub_abs_le_abs_sub ((a * k).val - (c * k).val) (k.val * (a.val - c.val))
    have h6 := abs_sub_abs_le_abs_sub ((b * k).val - (e * k).val) (k.val * (b.val - e.val))
    refine (norm_le_sum (B := 1465) ?_ ?_).trans (by norm_num)
    · norm_num at h1 ⊢
      linarith
    · norm_num at h3 ⊢
      linarith

theorem small_ppd {a b c e d d' : Fl A} {x : ℝ} (ha : |k.val * a.val| ≤ 732) (hb : |k.val * b.val| ≤ 732) (hc : |k.val * c.val| ≤ 732) (he : |k.val * e.val| ≤ 732) (hd : |k.val * d.val| ≤ 732)
    (hd' : d'.val = A.rnd (d.val * k.val)) (hx : x = dist (⟨a.val, b.val⟩ : ℂ) ⟨c.val, e.val⟩ - d.val) (h : k.val * |x| ≤ 102 / 10 ^ 9) :
    |(ppdResGrad (a * k) (b * k) (c * k) (e * k) d').1.val| ≤ 11 / 10 ^ 8 := by
  obtain ⟨h1, h2⟩ := scaled_norm hA hu hk ha hb hc he
  have h3 := fl_ppd hA (a * k) (b * k) (c * k) (e * k) d'
  have h4 := fl_scaling hA hu hd
  rw [← hd'] at h4
  set N := √(((a * k).val - (c * k).val) * ((a * k).val - (c * k).val) + ((b * k).val - (e * k).val) * ((b * k).val - (e * k).val))
  have h5 : |d'.val| ≤ 733 := by
    have := abs_sub_abs_le_abs_sub d'.val (k.val * d.val)
    norm_num at h4 ⊢
    linarith
  have h6 : 6.4 * u * (N + |d'.val|) ≤ 6.4 * (1 / 2 ^ 53) * 3663 := by
    refine mul_le_mul (mul_le_mul_of_nonneg_left hu (by norm_num)) (by linarith) (add_nonneg (Real.sqrt_nonneg _) (abs_nonneg _)) (by norm_num)
  have h7 : |k.val * x| ≤ 102 / 10 ^ 9 := by rwa [abs_mul, abs_of_nonneg hk]
  rw [hx, mul_sub] at h7
  have h8 := abs_le.1 (h3.trans h6)
  rw [abs_le] at h1 h4 h7 ⊢
  norm_num at h1 h4 h7 h8 ⊢
  constructor <;> linarith [h1.1, h1.2, h4.1, h4.2, h7.1, h7.2, h8.1, h8.2]

theorem small_ssle {a b c d e f g h : Fl A} {x : ℝ} (ha : |k.val * a.val| ≤ 732) (hb : |k.val * b.val| ≤ 732) (hc : |k.val * c.val| ≤ 732) (hd : |k.val * d.val| ≤ 732)
    (he : |k.val * e.val| ≤ 732) (hf : |k.val * f.val| ≤ 732) (hg : |k.val * g.val| ≤ 732) (hh : |k.val * h.val| ≤ 732)
    (hx : x = dist (⟨e.val, f.val⟩ : ℂ) ⟨g.val, h.val⟩ - dist (⟨a.val, b.val⟩ : ℂ) ⟨c.val, d.val⟩) (h0 : k.val * |x| ≤ 102 / 10 ^ 9) :
    |(ssleResGrad (a * k) (b * k) (c * k) (d * k) (e * k) (f * k) (g * k) (h * k)).1.val| ≤ 11 / 10 ^ 8 := by
  obtain ⟨h1, h2⟩ := scaled_norm hA hu hk ha hb hc hd
  obtain ⟨h1', h2'⟩ := scaled_norm hA hu hk he hf hg hh
  have h3 := fl_ssle hA (a * k) (b * k) (c * k) (d * k) (e * k) (f * k) (g * k) (h * k)
  set N := √(((a * k).val - (c * k).val) * ((a * k).val - (c * k).val) + ((b * k).val - (d * k).val) * ((b * k).val - (d * k).val))
  set N' := √(((e * k).val - (g * k).val) * ((e * k).val - (g * k).val) + ((f * k).val - (h * k).val) * ((f * k).val - (h * k).val))
  have h6 : 8 * u * (N' + N) ≤ 8 * (1 / 2 ^ 53) * 5860 :=
    mul_le_mul (mul_le_mul_of_nonneg_left hu (by norm_num)) (by linarith) (add_nonneg (Real.sqrt_nonneg _) (Real.sqrt_nonneg _)) (by norm_num)
  have h7 : |k.val * x| ≤ 102 / 10 ^ 9 := by rwa [abs_mul, abs_of_nonneg hk]
  rw [hx, mul_sub] at h7
  have h8 := abs_le.1 (h3.trans h6)
  rw [abs_le] at h1 h1' h7 ⊢
  norm_num at h1 h1' h7 h8 ⊢
  constructor <;> linarith [h1.1, h1.2, h1'.1, h1'.2, h7.1, h7.2, h8.1, h8.2]

theorem small_vve {a b : Fl A} {x : ℝ} (ha : |k.val * a.val| ≤ 732) (hb : |k.val * b.val| ≤ 732) (hx : |b.val - a.val| ≤ |x|) (h0 : k.val * |x| ≤ 102 / 10 ^ 9) :
    |(vveResGrad (a * k) (b * k)).1.val| ≤ 11 / 10 ^ 8 := by
  obtain ⟨h1, h2⟩ := scaled_difference hA hu hb ha
  have h3 := hA.rnd ((b * k).val - (a * k).val)
  have h4 : |k.val * (b.val - a.val)| ≤ 102 / 10 ^ 9 := by
    rw [abs_mul, abs_of_nonneg hk]
    exact (mul_le_mul_of_nonneg_left hx hk).trans h0
  have h5 := abs_sub_abs_le_abs_sub ((b * k).val - (a * k).val) (k.val * (b.val - a.val))
  have h6 : |(b * k).val - (a * k).val| ≤ 103 / 10 ^ 9 := by
    norm_num only at h1 h4 ⊢
    linarith
  have h7 := abs_sub_abs_le_abs_sub (A.rnd ((b * k).val - (a * k).val)) ((b * k).val - (a * k).val)
  have h8 := mul_le_mul hu h6 (abs_nonneg _) (by norm_num)
  show |A.rnd ((b * k).val - (a * k).val)| ≤ _
  norm_num at h6 h8 ⊢
  linarith

omit hk in
/-- Two scaled products of differences, added or subtracted. -/
theorem small_products {x r p q : ℝ} {a a' b b' c c' d d' : Fl A} (ha : |k.val * a.val| ≤ 732) (ha' : |k.val * a'.val| ≤ 732) (hb : |k.val * b.val| ≤ 732) (hb' : |k.val * b'.val| ≤ 732)
    (hc : |k.val * c.val| ≤ 732) (hc' : |k.val * c'.val| ≤ 732) (hd : |k.val * d.val| ≤ 732) (hd' : |k.val * d'.val| ≤ 732)
    (hp : p = ((a * k).val - (a' * k).val) * ((b * k).val - (b' * k).val)) (hq : q = ((c * k).val - (c' * k).val) * ((d * k).val - (d' * k).val))
    (hr : |r - (p + q)| ≤ 4.2 * u * (|p| + |q|) ∧ x = (a.val - a'.val) * (b.val - b'.val) + (c.val - c'.val) * (d.val - d'.val) ∨
      |r - (p - q)| ≤ 4.2 * u * (|p| + |q|) ∧ x = (a.val - a'.val) * (b.val - b'.val) - (c.val - c'.val) * (d.val - d'.val)) (h0 : k.val ^ 2 * |x| ≤ 1031 / 10 ^ 10) : |r| ≤ 11 / 10 ^ 8 := by
  obtain ⟨h1, h1'⟩ := scaled_difference hA hu ha ha'
  obtain ⟨h2, h2'⟩ := scaled_difference hA hu hb hb'
  obtain ⟨h3, h3'⟩ := scaled_difference hA hu hc hc'
  obtain ⟨h4, h4'⟩ := scaled_difference hA hu hd hd'
  obtain ⟨h5, h6⟩ := product_near h1 h2 h1' h2'
  obtain ⟨h7, h8⟩ := product_near h3 h4 h3' h4'
  rw [← hp] at h5 h6
  rw [← hq] at h7 h8
  have h9 : 4.2 * u * (|p| + |q|) ≤ 4.2 * (1 / 2 ^ 53) * 4288000 :=
    mul_le_mul (mul_le_mul_of_nonneg_left hu (by norm_num)) (by linarith) (by positivity) (by norm_num)
  have h10 : |k.val ^ 2 * x| ≤ 1031 / 10 ^ 10 := by rwa [abs_mul, abs_of_nonneg (sq_nonneg _)]
  rcases hr with ⟨hr, hx⟩ | ⟨hr, hx⟩
  · have h11 := abs_le.1 (hr.trans h9)
    rw [hx, mul_add] at h10
    rw [abs_le] at h5 h7 h10 ⊢
    norm_num at h5 h7 h10 h11 ⊢
    constructor <;> linarith [h5.1, h5.2, h7.1, h7.2, h10.1, h10.2, h11.1, h11.2]
  · have h11 := abs_le.1 (hr.trans h9)
    rw [hx, mul_sub] at h10
    rw [abs_le] at h5 h7 h10 ⊢
    norm_num at h5 h7 h10 h11 ⊢
    constructor <;> linarith [h5.1, h5.2, h7.1, h7.2, h10.1, h10.2, h11.1, h11.2]

end

/-! ## Reading the scaled problem -/

/-- The residuals of one constraint, in the scaled problem. -/
theorem Rel.scaled_con {A : Arith} {u : ℝ} (hA : A.Accurate u) (hu : u ≤ 1 / 2 ^ 53) {s : System (Fl A)} {st : Store (Fl A)} (hr : Rel s st) {k : Fl A} (hk : 0 ≤ k.val)
    (hv : ∀ x ∈ s.vars, |k.val * x.val| ≤ 732) (hd : ∀ e ∈ s.expressions, ∀ d, e.lengthParameter = some d → |k.val * d.val| ≤ 732) {σ : ℝ} (hσ : 0 ≤ σ) (hkσ : k.val * σ ≤ 101 / 100)
    {con : Spec.Con (Fl A)} (hcon : con ∈ st.cons) (hdev : ∃ n x t, con.dimension = some n ∧ Deviation st.real con.real x t ∧ |x| ≤ σ ^ n / 10 ^ 7) :
    ∀ e ∈ encCon st.elems con, ∀ r, (e.transform k).calculateResidual (identityMap (s.vars.map (fun v => v * k))) = .ok r → |r.val| ≤ 11 / 10 ^ 8 := by
  have one : ∀ {x : ℝ}, |x| ≤ σ ^ 1 / 10 ^ 7 → k.val * |x| ≤ 102 / 10 ^ 9 := by
    intro x hx
    rw [pow_one] at hx
    refine (mul_le_mul_of_nonneg_left hx hk).trans ?_
    rw [← mul_div_assoc]
    exact (div_le_div_of_nonneg_right hkσ (by norm_num)).trans (by norm_num)
  have two : ∀ {x : ℝ}, |x| ≤ σ ^ 2 / 10 ^ 7 → k.val ^ 2 * |x| ≤ 1031 / 10 ^ 10 := by
    intro x hx
    refine (mul_le_mul_of_nonneg_left hx (sq_nonneg _)).trans ?_
    rw [← mul_div_assoc, ← mul_pow]
    have := pow_le_pow_left₀ (mul_nonneg hk hσ) hkσ 2
    exact (div_le_div_of_nonneg_right this (by norm_num)).trans (by norm_num)
  have get : ∀ {i : Nat} {x : Fl A}, idx s.vars i = .ok x → idx (s.vars.map (fun v => v * k)) i = .ok (x * k) ∧ |k.val * x.val| ≤ 732 := by
    intro i x h
    rw [idx_eq_ok] at h
    exact ⟨idx_of (by rw [List.getElem?_map, h]; rfl), hv x (List.mem_of_getElem? h)⟩
  have hpoint : ∀ {p}, st.IsPoint p → ∃ x y, st.elems[p]? = some (.point x y) ∧ idx (s.vars.map (fun v => v * k)) (off st.elems p) = .ok (x * k) ∧
      idx (s.vars.map (fun v => v * k)) (off st.elems p + 1) = .ok (y * k) ∧ |k.val * x.val| ≤ 732 ∧ |k.val * y.val| ≤ 732 := by
    rintro p ⟨x, y, h⟩
    have h1 := get (hr.point_vars h).1
    have h2 := get (hr.point_vars h).2
    exact ⟨x, y, h, h1.1, h2.1, h1.2, h2.2⟩
  have hline : ∀ {l}, st.IsLine l → ∃ p q x y z w, st.elems[l]? = some (.line p q) ∧ st.elems[p]? = some (.point x y) ∧ st.elems[q]? = some (.point z w) ∧
      (idx (s.vars.map (fun v => v * k)) (lineOff st.elems l).1 = .ok (x * k) ∧ idx (s.vars.map (fun v => v * k)) ((lineOff st.elems l).1 + 1) = .ok (y * k) ∧
      idx (s.vars.map (fun v => v * k)) (lineOff st.elems l).2 = .ok (z * k) ∧ idx (s.vars.map (fun v => v * k)) ((lineOff st.elems l).2 + 1) = .ok (w * k)) ∧
      |k.val * x.val| ≤ 732 ∧ |k.val * y.val| ≤ 732 ∧ |k.val * z.val| ≤ 732 ∧ |k.val * w.val| ≤ 732 := by
    intro l hl
    obtain ⟨p, q, h1, ⟨x0, y0, h2⟩, ⟨x1, y1, h3⟩, h4, -⟩ := hr.line hl
    have a1 := get (hr.point_vars h2).1
    have a2 := get (hr.point_vars h2).2
    have a3 := get (hr.point_vars h3).1
    have a4 := get (hr.point_vars h3).2
    rw [h4]
    exact ⟨p, q, x0, y0, x1, y1, h1, h2, h3, ⟨a1.1, a2.1, a3.1, a4.1⟩, a1.2, a2.2, a3.2, a4.2⟩
  have hcirc : ∀ {l}, st.IsCircle l → ∃ p q x y z, st.elems[l]? = some (.circle p q) ∧ st.elems[p]? = some (.point x y) ∧ st.elems[q]? = some (.length z) ∧
      (idx (s.vars.map (fun v => v * k)) (circOff st.elems l).1 = .ok (x * k) ∧ idx (s.vars.map (fun v => v * k)) ((circOff st.elems l).1 + 1) = .ok (y * k) ∧
      idx (s.vars.map (fun v => v * k)) (circOff st.elems l).2 = .ok (z * k)) ∧ |k.val * x.val| ≤ 732 ∧ |k.val * y.val| ≤ 732 ∧ |k.val * z.val| ≤ 732 := by
    intro l hl
    obtain ⟨p, q, h1, ⟨x0, y0, h2⟩, ⟨x1, h3⟩, h4, -⟩ := hr.circle hl
    have a1 := get (hr.point_vars h2).1
    have a2 := get (hr.point_vars h2).2
    have a3 := get (hr.length_vars h3)
    rw [h4]
    exact ⟨p, q, x0, y0, x1, h1, h2, h3, ⟨a1.1, a2.1, a3.1⟩, a1.2, a2.2, a3.2⟩
  intro e hce r h
  have he' : e ∈ s.expressions := by
    rw [hr.exprs, List.mem_flatMap]
    exact ⟨con, hcon, hce⟩
  have hok := hr.wfCon con hcon
  obtain ⟨n, x, t, hn, hdv, hx⟩ := hdev
  cases con <;> simp only [Store.ConOk] at hok <;> simp only [Con.dimension, Option.some.injEq, reduceCtorEq] at hn <;> subst hn <;> simp only [encCon, List.mem_cons, List.not_mem_nil, or_false] at hce
  · obtain ⟨x0, y0, e1, a1, a2, b1, b2⟩ := hpoint hok.1
    obtain ⟨x1, y1, e2, a3, a4, b3, b4⟩ := hpoint hok.2
    simp only [Deviation, Con.real, pointIs_iff (real_point e1), pointIs_iff (real_point e2), exists_and_left, exists_eq_left] at hdv
    have hx' := one hx
    have hdist : |x| = ‖(⟨x1.val - x0.val, y1.val - y0.val⟩ : ℂ)‖ := by
      rw [hdv.1, abs_of_nonneg dist_nonneg, dist_comm, Complex.dist_eq, sub_mk]
    rcases hce with rfl | rfl
    · simp only [Expr.transform, Expr.calculateResidual, Expr.variableIndices, List.mapM_cons, List.mapM_nil, identityMap, Variable.value, a1, a2, a3, a4, ok_bind, pure_eq_ok,
        Expr.computeResidualAndGradient, Except.ok.injEq] at h
      rw [← h]
      exact small_vve hA hu hk b1 b3 (by rw [hdist]; exact abs_re_le_norm' _ _) hx'
    · simp only [Expr.transform, Expr.calculateResidual, Expr.variableIndices, List.mapM_cons, List.mapM_nil, identityMap, Variable.value, a1, a2, a3, a4, ok_bind, pure_eq_ok,
        Expr.computeResidualAndGradient, Except.ok.injEq] at h
      rw [← h]
      exact small_vve hA hu hk b2 b4 (by rw [hdist]; exact abs_im_le_norm' _ _) hx'
  · obtain ⟨x0, y0, e1, a1, a2, b1, b2⟩ := hpoint hok.1
    obtain ⟨x1, y1, e2, a3, a4, b3, b4⟩ := hpoint hok.2
    simp only [Deviation, Con.real, pointIs_iff (real_point e1), pointIs_iff (real_point e2), exists_and_left, exists_eq_left] at hdv
    subst hce
    simp only [Expr.transform, Expr.calculateResidual, Expr.variableIndices, List.mapM_cons, List.mapM_nil, identityMap, Variable.value, a1, a2, a3, a4, ok_bind, pure_eq_ok,
      Expr.computeResidualAndGradient, Except.ok.injEq] at h
    rw [← h]
    rename_i d
    exact small_ppd hA hu hk b1 b2 b3 b4 (hd _ he' d rfl) (by show A.rnd _ = A.rnd _; rw [mul_comm]) hdv.1 (one hx)
  · obtain ⟨x0, y0, e1, a1, a2, b1, b2⟩ := hpoint hok.1
    obtain ⟨p, q, x1, y1, x2, y2, e2, e3, e4, ⟨a3, a4, a5, a6⟩, b3, b4, b5, b6⟩ := hline hok.2
    simp only [Deviation, Con.real, pointIs_iff (real_point e1), lineIs_iff (real_line e2) (real_point e3) (real_point e4), exists_and_left, exists_eq_left, and_assoc] at hdv
    subst hce
    simp only [Expr.transform, Expr.calculateResidual, Expr.variableIndices, List.mapM_cons, List.mapM_nil, identityMap, Variable.value, a1, a2, a3, a4, a5, a6, ok_bind, pure_eq_ok,
      Expr.computeResidualAndGradient, Except.ok.injEq] at h
    rw [← h]
    refine small_products hA hu b5 b3 b2 b4 b6 b4 b1 b3 rfl rfl (.inr ⟨fl_pli hA _ _ _ _ _ _, ?_⟩) (two hx)
    rw [hdv.1, ← crossC_eq, sub_mk, sub_mk]
    rfl
  · obtain ⟨x0, y0, e1, a1, a2, b1, b2⟩ := hpoint hok.1
    obtain ⟨p, q, x1, y1, x2, e2, e3, e4, ⟨a3, a4, a5⟩, b3, b4, b5⟩ := hcirc hok.2
    simp only [Deviation, Con.real, pointIs_iff (real_point e1), circleIs_iff (real_circle e2) (real_point e3) (real_length e4), exists_and_left, exists_eq_left, and_assoc] at hdv
    subst hce
    simp only [Expr.transform, Expr.calculateResidual, Expr.variableIndices, List.mapM_cons, List.mapM_nil, identityMap, Variable.value, a1, a2, a3, a4, a5, ok_bind, pure_eq_ok,
      Expr.computeResidualAndGradient, Except.ok.injEq] at h
    rw [← h]
    exact small_ppd hA hu hk b1 b2 b3 b4 b5 rfl hdv.1 (one hx)
  · obtain ⟨x0, y0, e1, a1, a2, b1, b2⟩ := hpoint hok.1
    obtain ⟨x1, y1, e2, a3, a4, b3, b4⟩ := hpoint hok.2.1
    obtain ⟨x2, y2, e3, a5, a6, b5, b6⟩ := hpoint hok.2.2.1
    obtain ⟨x3, y3, e4, a7, a8, b7, b8⟩ := hpoint hok.2.2.2
    simp only [Deviation, Con.real, pointIs_iff (real_point e1), pointIs_iff (real_point e2), pointIs_iff (real_point e3), pointIs_iff (real_point e4), exists_and_left, exists_eq_left] at hdv
    subst hce
    simp only [Expr.transform, Expr.calculateResidual, Expr.variableIndices, List.mapM_cons, List.mapM_nil, identityMap, Variable.value, a1, a2, a3, a4, a5, a6, a7, a8, ok_bind, pure_eq_ok,
      Expr.computeResidualAndGradient, Except.ok.injEq] at h
    rw [← h]
    exact small_ssle hA hu hk b1 b2 b3 b4 b5 b6 b7 b8 hdv.1 (one hx)
  · obtain ⟨p, q, x1, y1, x2, y2, e2, e3, e4, ⟨a3, a4, a5, a6⟩, b3, b4, b5, b6⟩ := hline hok.1
    obtain ⟨p', q', x1', y1', x2', y2', e2', e3', e4', ⟨a3', a4', a5', a6'⟩, b3', b4', b5', b6'⟩ := hline hok.2
    simp only [Deviation, Con.real, lineIs_iff (real_line e2) (real_point e3) (real_point e4), lineIs_iff (real_line e2') (real_point e3') (real_point e4'), exists_and_left, exists_eq_left,
      and_assoc] at hdv
    subst hce
    simp only [Expr.transform, Expr.calculateResidual, Expr.variableIndices, List.mapM_cons, List.mapM_nil, identityMap, Variable.value, a3, a4, a5, a6, a3', a4', a5', a6', ok_bind, pure_eq_ok,
      Expr.computeResidualAndGradient, Except.ok.injEq] at h
    rw [← h]
    refine small_products hA hu b5' b3' b6 b4 b6' b4' b5 b3 rfl rfl (.inr ⟨fl_llpar hA _ _ _ _ _ _ _ _, ?_⟩) (two hx)
    rw [hdv.1, ← crossC_eq, sub_mk, sub_mk]
    rfl
  · obtain ⟨p, q, x1, y1, x2, y2, e2, e3, e4, ⟨a3, a4, a5, a6⟩, b3, b4, b5, b6⟩ := hline hok.1
    obtain ⟨p', q', x1', y1', x2', y2', e2', e3', e4', ⟨a3', a4', a5', a6'⟩, b3', b4', b5', b6'⟩ := hline hok.2
    simp only [Deviation, Con.real, lineIs_iff (real_line e2) (real_point e3) (real_point e4), lineIs_iff (real_line e2') (real_point e3') (real_point e4'), exists_and_left, exists_eq_left,
      and_assoc] at hdv
    subst hce
    simp only [Expr.transform, Expr.calculateResidual, Expr.variableIndices, List.mapM_cons, List.mapM_nil, identityMap, Variable.value, a3, a4, a5, a6, a3', a4', a5', a6', ok_bind, pure_eq_ok,
      Expr.computeResidualAndGradient, Except.ok.injEq] at h
    rw [← h]
    refine small_products hA hu b5' b3' b5 b3 b6' b4' b6 b4 rfl rfl (.inl ⟨fl_llperp hA _ _ _ _ _ _ _ _, ?_⟩) (two hx)
    rw [hdv.1, ← dotC_eq, sub_mk, sub_mk]
    rfl

theorem Rel.scaled_small {A : Arith} {s : System (Fl A)} {st : Store (Fl A)} (hr : Rel s st) {k : Fl A} {B : ℝ}
    (h : ∀ con ∈ st.cons, ∀ e ∈ encCon st.elems con, ∀ r, (e.transform k).calculateResidual (identityMap (s.vars.map (fun v => v * k))) = .ok r → |r.val| ≤ B) :
    ∀ e ∈ s.expressions.map (Expr.transform k), ∀ r, e.calculateResidual (identityMap (s.vars.map (fun v => v * k))) = .ok r → |r.val| ≤ B := by
  intro e he r hres
  obtain ⟨e', he', rfl⟩ := List.mem_map.1 he
  rw [hr.exprs, List.mem_flatMap] at he'
  obtain ⟨con, hcon, hce⟩ := he'
  exact h con hcon e' hce r hres

end Fiksi
