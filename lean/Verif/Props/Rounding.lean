import Verif.Proofs.Binary64
import Verif.Proofs.Reaches
/-!
# Residuals in rounded arithmetic (C70)
-/
namespace Fiksi

open Complex Spec Spec.Geo

section
variable {F : Type} {st : Store F}

theorem lineParts (hw : ∀ (i : Nat) (e : Elem F), st.elems[i]? = some e → ElemOk st e) {l : Nat} (h : st.IsLine l) : ∃ p q x y z w, st.elems[l]? = some (.line p q) ∧
    st.elems[p]? = some (.point x y) ∧ st.elems[q]? = some (.point z w) ∧ partsOf st l = [x, y, z, w] := by
  obtain ⟨p, q, hl⟩ := h
  obtain ⟨⟨x, y, hp⟩, ⟨z, w, hq⟩⟩ := hw l _ hl
  exact ⟨p, q, x, y, z, w, hl, hp, hq, by simp [partsOf, ptOf, hl, hp, hq, elemValues]⟩

theorem circleParts (hw : ∀ (i : Nat) (e : Elem F), st.elems[i]? = some e → ElemOk st e) {l : Nat} (h : st.IsCircle l) : ∃ p q x y v, st.elems[l]? = some (.circle p q) ∧
    st.elems[p]? = some (.point x y) ∧ st.elems[q]? = some (.length v) ∧ partsOf st l = [x, y, v] := by
  obtain ⟨p, q, hl⟩ := h
  obtain ⟨⟨x, y, hp⟩, ⟨z, hq⟩⟩ := hw l _ hl
  exact ⟨p, q, x, y, z, hl, hp, hq, by simp [partsOf, ptOf, hl, hp, hq, elemValues]⟩

theorem pointParts {p : Nat} (h : st.IsPoint p) : ∃ x y, st.elems[p]? = some (.point x y) ∧ ptOf st p = [x, y] := by
  obtain ⟨x, y, h⟩ := h
  exact ⟨x, y, h, by simp [ptOf, h, elemValues]⟩

end

theorem products_le (a b c d : ℝ) : |a * d| + |b * c| ≤ ‖(⟨a, b⟩ : ℂ)‖ * ‖(⟨c, d⟩ : ℂ)‖ := by
  rw [← sqrt_sq_add, ← sqrt_sq_add, ← Real.sqrt_mul (by nlinarith [mul_self_nonneg a, mul_self_nonneg b])]
  apply Real.le_sqrt_of_sq_le
  rw [abs_mul, abs_mul]
  have ha := abs_mul_abs_self a
  have hb := abs_mul_abs_self b
  have hc := abs_mul_abs_self c
  have hd := abs_mul_abs_self d
  rw [← ha, ← hb, ← hc, ← hd]
  nlinarith [sq_nonneg (|a| * |c| - |b| * |d|)]

theorem abs_re_le_norm' (a b : ℝ) : |a| ≤ ‖(⟨a, b⟩ : ℂ)‖ := Complex.abs_re_le_norm ⟨a, b⟩
theorem abs_im_le_norm' (a b : ℝ) : |b| ≤ ‖(⟨a, b⟩ : ℂ)‖ := Complex.abs_im_le_norm ⟨a, b⟩

section
variable {A : Arith} {st : Store (Fl A)}

theorem real_point {p : Nat} {x y : Fl A} (h : st.elems[p]? = some (.point x y)) : st.real.elems[p]? = some (.point x.val y.val) := by
  simp [Store.real, h, Elem.real]

theorem real_line {l p q : Nat} (h : st.elems[l]? = some (.line p q)) : st.real.elems[l]? = some (.line p q) := by
  simp [Store.real, h, Elem.real]

theorem real_circle {l p q : Nat} (h : st.elems[l]? = some (.circle p q)) : st.real.elems[l]? = some (.circle p q) := by
  simp [Store.real, h, Elem.real]

theorem real_length {p : Nat} {x : Fl A} (h : st.elems[p]? = some (.length x)) : st.real.elems[p]? = some (.length x.val) := by
  simp [Store.real, h, Elem.real]

/-- The residual computed from the values of a store. -/
theorem storeResidual_rounded {u : ℝ} (hA : A.Accurate u) (hw : ∀ (i : Nat) (e : Elem (Fl A)), st.elems[i]? = some e → ElemOk st e) {con : Spec.Con (Fl A)} (hok : st.ConOk con)
    (hp : Proper st.real con.real) {r : Fl A} (h : storeResidual st con = .ok r) : ∃ x s, Deviation st.real con.real x s ∧ |r.val - x| ≤ 16 * u * s := by
  have hu := hA.pos
  have le16 : ∀ {k s y : ℝ}, k ≤ 16 → 0 ≤ s → y ≤ k * u * s → y ≤ 16 * u * s := fun hk hs hy => hy.trans (mul_le_mul_of_nonneg_right (mul_le_mul_of_nonneg_right hk hu) hs)
  have le16' : ∀ {k s s' y : ℝ}, 0 ≤ k → k ≤ 16 → 0 ≤ s → s ≤ s' → y ≤ k * u * s → y ≤ 16 * u * s' := fun h0 hk hs hs' hy =>
    hy.trans (mul_le_mul (mul_le_mul_of_nonneg_right hk hu) hs' hs (by positivity))
  cases con <;> simp only [Store.ConOk] at hok
  · obtain ⟨x, y, h1, e1⟩ := pointParts hok.1
    obtain ⟨z, w, h2, e2⟩ := pointParts hok.2
    simp only [storeResidual, e1, e2, Except.ok.injEq] at h
    subst h
    have := fl_coincidence hA x y z w
    rw [sqrt_sq_add, ← sub_mk, ← Complex.dist_eq, dist_comm] at this
    exact ⟨_, _, ⟨⟨x.val, y.val⟩, ⟨z.val, w.val⟩, (pointIs_iff (real_point h1) _).2 rfl, (pointIs_iff (real_point h2) _).2 rfl, rfl, rfl⟩, le16 (by norm_num) dist_nonneg this⟩
  · obtain ⟨x, y, h1, e1⟩ := pointParts hok.1
    obtain ⟨z, w, h2, e2⟩ := pointParts hok.2
    simp only [storeResidual, e1, e2, Except.ok.injEq, List.cons_append, List.nil_append] at h
    subst h
    rename_i d
    have := fl_ppd hA x y z w d
    rw [sqrt_sq_add, ← sub_mk, ← Complex.dist_eq] at this
    exact ⟨_, _, ⟨⟨x.val, y.val⟩, ⟨z.val, w.val⟩, (pointIs_iff (real_point h1) _).2 rfl, (pointIs_iff (real_point h2) _).2 rfl, rfl, rfl⟩,
      le16 (by norm_num) (add_nonneg dist_nonneg (abs_nonneg _)) this⟩
  · obtain ⟨x, y, h1, e1⟩ := pointParts hok.1
    obtain ⟨z, w, h2, e2⟩ := pointParts hok.2.1
    obtain ⟨a, b, h3, e3⟩ := pointParts hok.2.2
    simp only [storeResidual, e1, e2, e3, Except.ok.injEq, List.cons_append, List.nil_append] at h
    subst h
    rename_i θ
    simp only [Proper, Con.real, pointIs_iff (real_point h1), pointIs_iff (real_point h2), pointIs_iff (real_point h3), exists_and_left, exists_eq_left] at hp
    rw [← sub_ne_zero, ← sub_ne_zero (b := (⟨z.val, w.val⟩ : ℂ)), sub_mk, sub_mk] at hp
    obtain ⟨dev, h4, h5⟩ := fl_angle hA hp.1 hp.2 (FloatOps.atan2 (b - w) (a - z)) (FloatOps.atan2 (y - w) (x - z)) rfl rfl θ
    exact ⟨dev, _, ⟨⟨x.val, y.val⟩, ⟨z.val, w.val⟩, ⟨a.val, b.val⟩, (pointIs_iff (real_point h1) _).2 rfl, (pointIs_iff (real_point h2) _).2 rfl, (pointIs_iff (real_point h3) _).2 rfl, h4, rfl⟩, h5⟩
  · obtain ⟨x, y, h1, e1⟩ := pointParts hok.1
    obtain ⟨p, q, z, w, a, b, h2, h3, h4, e2⟩ := lineParts hw hok.2
    simp only [storeResidual, e1, e2, Except.ok.injEq, List.cons_append, List.nil_append] at h
    subst h
    have h5 := fl_pli hA x y z w a b
    have h6 := products_le (a.val - z.val) (b.val - w.val) (x.val - z.val) (y.val - w.val)
    refine ⟨_, _, ⟨⟨x.val, y.val⟩, ⟨z.val, w.val⟩, ⟨a.val, b.val⟩, (pointIs_iff (real_point h1) _).2 rfl, (lineIs_iff (real_line h2) (real_point h3) (real_point h4) _ _).2 ⟨rfl, rfl⟩, rfl, rfl⟩, ?_⟩
    rw [← crossC_eq, dist_comm (⟨z.val, w.val⟩ : ℂ), Complex.dist_eq, Complex.dist_eq]
    exact le16' (by norm_num) (by norm_num) (by positivity) h6 h5
  · obtain ⟨x, y, h1, e1⟩ := pointParts hok.1
    obtain ⟨p, q, z, w, a, b, h2, h3, h4, e2⟩ := lineParts hw hok.2
    simp only [storeResidual, e1, e2, Except.ok.injEq, List.cons_append, List.nil_append] at h
    subst h
    rename_i d
    simp only [Proper, Con.real, lineIs_iff (real_line h2) (real_point h3) (real_point h4), exists_and_left, exists_eq_left, and_assoc] at hp
    have h0 : 0 < ‖(⟨a.val, b.val⟩ : ℂ) - ⟨z.val, w.val⟩‖ := norm_pos_iff.2 (sub_ne_zero.2 hp.symm)
    have h5 := fl_pld hA x y z w a b d (by rw [sqrt_sq_add, ← sub_mk]) h0
    have h6 := products_le (a.val - z.val) (b.val - w.val) (x.val - z.val) (y.val - w.val)
    refine ⟨crossC (⟨a.val, b.val⟩ - ⟨z.val, w.val⟩) (⟨x.val, y.val⟩ - ⟨z.val, w.val⟩) / ‖(⟨a.val, b.val⟩ : ℂ) - ⟨z.val, w.val⟩‖ - d.val, _,
      ⟨⟨x.val, y.val⟩, ⟨z.val, w.val⟩, ⟨a.val, b.val⟩, (pointIs_iff (real_point h1) _).2 rfl, (lineIs_iff (real_line h2) (real_point h3) (real_point h4) _ _).2 ⟨rfl, rfl⟩, ?_, rfl⟩, ?_⟩
    · rw [add_sub_cancel]
      exact (signedDistance_iff hp _ _).1 rfl
    · rw [one_div, inv_mul_eq_div] at h5
      refine le16' (by norm_num) (by norm_num) (by positivity) (add_le_add_left ?_ _) h5
      rw [Complex.dist_eq, div_le_iff₀ h0]
      exact h6.trans (le_of_eq (mul_comm _ _))
  · obtain ⟨x, y, h1, e1⟩ := pointParts hok.1
    obtain ⟨p, q, z, w, a, h2, h3, h4, e2⟩ := circleParts hw hok.2
    simp only [storeResidual, e1, e2, Except.ok.injEq, List.cons_append, List.nil_append] at h
    subst h
    have := fl_ppd hA x y z w a
    rw [sqrt_sq_add, ← sub_mk, ← Complex.dist_eq] at this
    exact ⟨_, _, ⟨⟨x.val, y.val⟩, ⟨z.val, w.val⟩, a.val, (pointIs_iff (real_point h1) _).2 rfl, (circleIs_iff (real_circle h2) (real_point h3) (real_length h4) _ _).2 ⟨rfl, rfl⟩, rfl, rfl⟩,
      le16 (by norm_num) (add_nonneg dist_nonneg (abs_nonneg _)) this⟩
  · obtain ⟨x, y, h1, e1⟩ := pointParts hok.1
    obtain ⟨z, w, h2, e2⟩ := pointParts hok.2.1
    obtain ⟨a, b, h3, e3⟩ := pointParts hok.2.2.1
    obtain ⟨c, d, h4, e4⟩ := pointParts hok.2.2.2
    simp only [storeResidual, e1, e2, e3, e4, Except.ok.injEq, List.cons_append, List.nil_append] at h
    subst h
    have := fl_ssle hA x y z w a b c d
    rw [sqrt_sq_add, sqrt_sq_add, ← sub_mk, ← sub_mk, ← Complex.dist_eq, ← Complex.dist_eq] at this
    exact ⟨_, _, ⟨⟨x.val, y.val⟩, ⟨z.val, w.val⟩, ⟨a.val, b.val⟩, ⟨c.val, d.val⟩, (pointIs_iff (real_point h1) _).2 rfl, (pointIs_iff (real_point h2) _).2 rfl,
      (pointIs_iff (real_point h3) _).2 rfl, (pointIs_iff (real_point h4) _).2 rfl, rfl, rfl⟩, le16 (by norm_num) (add_nonneg dist_nonneg dist_nonneg) this⟩
  · obtain ⟨p, q, z, w, a, b, h2, h3, h4, e2⟩ := lineParts hw hok.1
    obtain ⟨p', q', z', w', a', b', h2', h3', h4', e2'⟩ := lineParts hw hok.2
    simp only [storeResidual, e2, e2', Except.ok.injEq, List.cons_append, List.nil_append] at h
    subst h
    rename_i θ
    simp only [Proper, Con.real, lineIs_iff (real_line h2) (real_point h3) (real_point h4), lineIs_iff (real_line h2') (real_point h3') (real_point h4'), exists_and_left, exists_eq_left, and_assoc] at hp
    have hp1 := sub_ne_zero.2 hp.1.symm
    have hp2 := sub_ne_zero.2 hp.2.symm
    rw [sub_mk] at hp1 hp2
    obtain ⟨dev, h5, h6⟩ := fl_angle hA hp1 hp2 (FloatOps.atan2 (b' - w') (a' - z')) (FloatOps.atan2 (b - w) (a - z)) rfl rfl θ
    exact ⟨dev, _, ⟨⟨z.val, w.val⟩, ⟨a.val, b.val⟩, ⟨z'.val, w'.val⟩, ⟨a'.val, b'.val⟩, (lineIs_iff (real_line h2) (real_point h3) (real_point h4) _ _).2 ⟨rfl, rfl⟩,
      (lineIs_iff (real_line h2') (real_point h3') (real_point h4') _ _).2 ⟨rfl, rfl⟩, h5, rfl⟩, h6⟩
  · obtain ⟨p, q, z, w, a, b, h2, h3, h4, e2⟩ := lineParts hw hok.1
    obtain ⟨p', q', z', w', a', b', h2', h3', h4', e2'⟩ := lineParts hw hok.2
    simp only [storeResidual, e2, e2', Except.ok.injEq, List.cons_append, List.nil_append] at h
    subst h
    have h5 := fl_llpar hA z w a b z' w' a' b'
    have h6 := products_le (a'.val - z'.val) (b'.val - w'.val) (a.val - z.val) (b.val - w.val)
    refine ⟨_, _, ⟨⟨z.val, w.val⟩, ⟨a.val, b.val⟩, ⟨z'.val, w'.val⟩, ⟨a'.val, b'.val⟩, (lineIs_iff (real_line h2) (real_point h3) (real_point h4) _ _).2 ⟨rfl, rfl⟩,
      (lineIs_iff (real_line h2') (real_point h3') (real_point h4') _ _).2 ⟨rfl, rfl⟩, rfl, rfl⟩, ?_⟩
    rw [← crossC_eq, mul_comm (dist _ _), dist_comm (⟨z.val, w.val⟩ : ℂ), dist_comm (⟨z'.val, w'.val⟩ : ℂ), Complex.dist_eq, Complex.dist_eq]
    exact le16' (by norm_num) (by norm_num) (by positivity) h6 h5
  · obtain ⟨p, q, z, w, a, b, h2, h3, h4, e2⟩ := lineParts hw hok.1
    obtain ⟨p', q', z', w', a', b', h2', h3', h4', e2'⟩ := lineParts hw hok.2
    simp only [storeResidual, e2, e2', Except.ok.injEq, List.cons_append, List.nil_append] at h
    subst h
    have h5 := fl_llperp hA z w a b z' w' a' b'
    have h6 := products_le (a'.val - z'.val) (b'.val - w'.val) (b.val - w.val) (a.val - z.val)
    refine ⟨_, _, ⟨⟨z.val, w.val⟩, ⟨a.val, b.val⟩, ⟨z'.val, w'.val⟩, ⟨a'.val, b'.val⟩, (lineIs_iff (real_line h2) (real_point h3) (real_point h4) _ _).2 ⟨rfl, rfl⟩,
      (lineIs_iff (real_line h2') (real_point h3') (real_point h4') _ _).2 ⟨rfl, rfl⟩, rfl, rfl⟩, ?_⟩
    have hn : ‖(⟨b.val - w.val, a.val - z.val⟩ : ℂ)‖ = ‖(⟨a.val, b.val⟩ : ℂ) - ⟨z.val, w.val⟩‖ := by
      rw [sub_mk, ← sqrt_sq_add, ← sqrt_sq_add, add_comm]
    rw [hn] at h6
    rw [← dotC_eq, mul_comm (dist _ _), dist_comm (⟨z.val, w.val⟩ : ℂ), dist_comm (⟨z'.val, w'.val⟩ : ℂ), Complex.dist_eq, Complex.dist_eq]
    exact le16' (by norm_num) (by norm_num) (by positivity) h6 h5
  · obtain ⟨p, q, z, w, a, b, h2, h3, h4, e2⟩ := lineParts hw hok.1
    obtain ⟨p', q', x, y, ρ, h2', h3', h4', e2'⟩ := circleParts hw hok.2
    simp only [storeResidual, e2, e2', Except.ok.injEq, List.cons_append, List.nil_append] at h
    subst h
    simp only [Proper, Con.real, lineIs_iff (real_line h2) (real_point h3) (real_point h4), exists_and_left, exists_eq_left, and_assoc] at hp
    have h0 : 0 < ‖(⟨z.val, w.val⟩ : ℂ) - ⟨a.val, b.val⟩‖ := norm_pos_iff.2 (sub_ne_zero.2 hp)
    have h5 := fl_lct hA z w a b x y ρ (by rw [sqrt_sq_add, ← sub_mk]) h0
    refine ⟨_, _, ⟨⟨z.val, w.val⟩, ⟨a.val, b.val⟩, ⟨x.val, y.val⟩, ρ.val, (lineIs_iff (real_line h2) (real_point h3) (real_point h4) _ _).2 ⟨rfl, rfl⟩,
      (circleIs_iff (real_circle h2') (real_point h3') (real_length h4') _ _).2 ⟨rfl, rfl⟩, rfl, rfl⟩, ?_⟩
    have e : z.val * (b.val - y.val) + a.val * (y.val - w.val) + x.val * (w.val - b.val) = crossC (⟨a.val, b.val⟩ - ⟨z.val, w.val⟩) (⟨x.val, y.val⟩ - ⟨z.val, w.val⟩) := by
      simp only [crossC, sub_mk]; ring
    rw [e, one_div, inv_mul_eq_div, norm_sub_rev, ← infDist_line hp] at h5
    rw [norm_sub_rev] at h0
    refine le16' (by norm_num) (by norm_num) (by positivity) (add_le_add_left ?_ _) h5
    rw [dist_comm (⟨z.val, w.val⟩ : ℂ) ⟨a.val, b.val⟩, Complex.dist_eq, Complex.dist_eq, Complex.dist_eq]
    refine div_le_div_of_nonneg_right ?_ h0.le
    rw [abs_mul, abs_mul, abs_mul, sub_mk, sub_mk, sub_mk]
    have k1 := mul_le_mul_of_nonneg_left (abs_im_le_norm' (a.val - x.val) (b.val - y.val)) (abs_nonneg z.val)
    have k2 := mul_le_mul_of_nonneg_left (abs_im_le_norm' (x.val - z.val) (y.val - w.val)) (abs_nonneg a.val)
    have k3 := mul_le_mul_of_nonneg_left (abs_im_le_norm' (a.val - z.val) (b.val - w.val)) (abs_nonneg x.val)
    rw [abs_sub_comm b.val w.val] at k3
    exact add_le_add (add_le_add k1 k2) k3

end

/-- C70: the residual that the API reports is right up to rounding. In any arithmetic whose operations have a relative error of at most `u` (binary64 without limits on the exponent: `2⁻⁵³`),
after any legal history, the residual read from a constraint whose lines and arms are not degenerate is by at most `16·u·s` off the deviation of the figure in the exact plane; `s` is the size of the
quantities compared (`Spec.Geo.Deviation`): distances and parameters, for tangency distances times coordinates over the length of the line. -/
theorem C70_residual_rounding_partial {A : Arith} {u : ℝ} (hA : A.Accurate u) {counter : Nat} {ops : List (Op (Fl A))} {c : Client (Fl A)} (h : Reaches counter ops c) {i : Nat} {hd : Handle}
    (hh : c.conHandles[i]? = some hd) {con : Spec.Con (Fl A)} (hcon : ((Store.empty (Fl A)).run ops).cons[i]? = some con) (hp : Proper ((Store.empty (Fl A)).run ops).real con.real) :
    ∃ r, c.sys.calculateResidual con.kind hd = .ok r ∧ ∃ x s, Deviation ((Store.empty (Fl A)).run ops).real con.real x s ∧ |r.val - x| ≤ 16 * u * s := by
  have hr := h.crel
  rw [hr.conHandle (lt_of_getElem? hcon)] at hh
  cases hh
  obtain ⟨r, h1, h2⟩ := hr.calculateResidual hcon
  exact ⟨r, h2, storeResidual_rounded hA hr.rel.wfElem (hr.rel.wfCon con (List.mem_of_getElem? hcon)) hp h1⟩

/-! ## Binary64 -/

/-- C70 for arithmetic that rounds to a nearest number with 53 bits: the error is at most `2⁻⁴⁹` of the size. -/
theorem C70_residual_rounding_binary64_partial {A : Arith} (hA : A.Binary64) (hatan2 : ∀ x y, |A.atan2 y x - Complex.arg ⟨x, y⟩| ≤ 2 * (1 / 2 ^ 53) * |Complex.arg ⟨x, y⟩|) {counter : Nat}
    {ops : List (Op (Fl A))} {c : Client (Fl A)} (h : Reaches counter ops c) {i : Nat} {hd : Handle} (hh : c.conHandles[i]? = some hd) {con : Spec.Con (Fl A)}
    (hcon : ((Store.empty (Fl A)).run ops).cons[i]? = some con) (hp : Proper ((Store.empty (Fl A)).run ops).real con.real) :
    ∃ r, c.sys.calculateResidual con.kind hd = .ok r ∧ ∃ x s, Deviation ((Store.empty (Fl A)).run ops).real con.real x s ∧ |r.val - x| ≤ s / 2 ^ 49 := by
  obtain ⟨r, h1, x, s, h2, h3⟩ := C70_residual_rounding_partial ⟨by positivity, by norm_num, binary64_error hA, hatan2⟩ h hh hcon hp
  exact ⟨r, h1, x, s, h2, h3.trans_eq (by ring)⟩

/-- A vertical line far to the right of the origin, and a circle of radius 1 that touches it. -/
noncomputable def farTangentOps {A : Arith} : List (Op (Fl A)) :=
  [.createPoint ⟨2 ^ 53 - 1⟩ ⟨0⟩, .createPoint ⟨2 ^ 53 - 1⟩ ⟨3⟩, .createPoint ⟨2 ^ 53⟩ ⟨1⟩, .createLength ⟨1⟩, .createLine 0 1, .createCircle 2 3, .createCon (.lineCircleTangency 4 5)]

theorem farTangentOps_reaches {A : Arith} : ∃ c, Reaches 0 (farTangentOps (A := A)) c :=
  exists_reaches 0 farTangentOps (by
    simp [farTangentOps, Store.LegalRun, Store.Legal, Store.empty, Store.step, Store.IsPoint, Store.IsLength, Store.IsLine, Store.IsCircle, Store.ConOk]) (by simp [farTangentOps])

theorem farTangentOps_line {A : Arith} : LineIs ((Store.empty (Fl A)).run farTangentOps).real 4 ⟨2 ^ 53 - 1, 0⟩ ⟨2 ^ 53 - 1, 3⟩ :=
  (lineIs_iff (p := 0) (q := 1) rfl rfl rfl _ _).2 ⟨rfl, rfl⟩

theorem farTangentOps_circle {A : Arith} : CircleIs ((Store.empty (Fl A)).run farTangentOps).real 5 ⟨2 ^ 53, 1⟩ 1 :=
  (circleIs_iff (p := 2) (q := 3) rfl rfl rfl _ _).2 ⟨rfl, rfl⟩

/-- The hypotheses of `C70_residual_rounding_binary64_partial` are met. -/
example : ∃ c, Reaches 0 (farTangentOps (A := binary64)) c ∧ binary64.Binary64 ∧ (∀ x y, |binary64.atan2 y x - Complex.arg ⟨x, y⟩| ≤ 2 * (1 / 2 ^ 53) * |Complex.arg ⟨x, y⟩|) ∧
    Proper ((Store.empty (Fl binary64)).run farTangentOps).real (.lineCircleTangency 4 5) := by
  obtain ⟨c, h⟩ := farTangentOps_reaches (A := binary64)
  refine ⟨c, h, binary64_ok, binary64_accurate.atan2, _, _, farTangentOps_line, fun he => ?_⟩
  have := congrArg Complex.im he
  norm_num at this

/-- A number of the format between `2⁵⁴` and `2⁵⁵` is a multiple of 4. -/
theorem four_of_representable {x : ℝ} (h : Representable x) (h1 : 2 ^ 54 ≤ x) : ∃ n : ℤ, x = 4 * n := by
  obtain ⟨m, e, hm, rfl⟩ := h
  have hm' : (m : ℝ) < 2 ^ 53 := by exact_mod_cast (abs_lt.1 hm).2
  have h2 : (2 : ℝ) ^ (1 : ℤ) < 2 ^ e := by
    have : (m : ℝ) * 2 ^ e < 2 ^ 53 * 2 ^ e := mul_lt_mul_of_pos_right hm' (by positivity)
    rw [zpow_one]
    linarith
  have h3 := (zpow_lt_zpow_iff_right₀ (by norm_num)).1 h2
  obtain ⟨k, hk⟩ := Int.eq_ofNat_of_zero_le (by omega : 0 ≤ e - 2)
  refine ⟨m * 2 ^ k, ?_⟩
  obtain rfl : e = k + 2 := by omega
  rw [zpow_add₀ (by norm_num)]
  push_cast
  rw [zpow_natCast]
  norm_num
  ring

theorem rounded_area {A : Arith} (hA : A.Binary64) : A.rnd (3 * 2 ^ 53 - 3) = 3 * 2 ^ 53 - 4 := by
  have h1 := (hA (3 * 2 ^ 53 - 3)).2 (3 * 2 ^ 53 - 4) ⟨3 * 2 ^ 51 - 1, 2, by norm_num, by norm_num⟩
  rw [show |(3 * 2 ^ 53 - 4 : ℝ) - (3 * 2 ^ 53 - 3)| = 1 by norm_num, abs_le] at h1
  obtain ⟨n, hn⟩ := four_of_representable (hA (3 * 2 ^ 53 - 3)).1 (by linarith [h1.1])
  rw [hn] at h1 ⊢
  have h2 : n = 3 * 2 ^ 51 - 1 := by
    have h3 : (n : ℝ) < 3 * 2 ^ 51 := by linarith [h1.2]
    have h4 : (3 * 2 ^ 51 - 2 : ℝ) < n := by linarith [h1.1]
    have h3' : n < 3 * 2 ^ 51 := by exact_mod_cast h3
    have h4' : 3 * 2 ^ 51 - 2 < n := by exact_mod_cast h4
    omega
  rw [h2]
  norm_num

/-- C70 fails for tangency if the size is measured by distances alone: the formula of the code (`expressions.rs:819-873`) computes the area with the coordinates themselves and not with their
differences. Here all distances of the figure are at most 4, all numbers have at most 53 bits, the line touches the circle, and the residual read is more than 1/4. (It would be right with the
differences, as for the distance of a point from a line.) -/
theorem C70_tangency_far_out {A : Arith} (hA : A.Binary64) : ∃ c r, Reaches 0 (farTangentOps (A := A)) c ∧ c.sys.calculateResidual .lineCircleTangency (c.conHandles[0]?.getD ⟨0, 0⟩) = .ok r ∧
    (∃ P Q C ρ, LineIs ((Store.empty (Fl A)).run farTangentOps).real 4 P Q ∧ CircleIs ((Store.empty (Fl A)).run farTangentOps).real 5 C ρ ∧ Metric.infDist C {p | OnLine p P Q} = ρ ∧
      dist P Q ≤ 4 ∧ dist P C ≤ 4 ∧ dist Q C ≤ 4) ∧ 1 / 4 < r.val := by
  obtain ⟨c, h⟩ := farTangentOps_reaches (A := A)
  have hcon : ((Store.empty (Fl A)).run farTangentOps).cons[0]? = some (.lineCircleTangency 4 5) := rfl
  have hr := h.crel
  obtain ⟨r, h1, h2⟩ := hr.calculateResidual hcon
  refine ⟨c, r, h, ?_, ⟨_, _, _, _, farTangentOps_line, farTangentOps_circle, ?_, ?_, ?_, ?_⟩, ?_⟩
  · rw [hr.conHandle (lt_of_getElem? hcon)]
    exact h2
  · rw [infDist_line (by intro he; have := congrArg Complex.im he; norm_num at this)]
    simp only [crossC, sub_mk, ← sqrt_sq_add]
    rw [show ((2 ^ 53 - 1 - (2 ^ 53 - 1)) * (2 ^ 53 - 1 - (2 ^ 53 - 1)) + (3 - 0) * (3 - 0) : ℝ) = 3 ^ 2 by norm_num, Real.sqrt_sq (by norm_num)]
    norm_num
  · rw [Complex.dist_eq, sub_mk, ← sqrt_sq_add, Real.sqrt_le_left (by norm_num)]
    norm_num
  · rw [Complex.dist_eq, sub_mk, ← sqrt_sq_add, Real.sqrt_le_left (by norm_num)]
    norm_num
  · rw [Complex.dist_eq, sub_mk, ← sqrt_sq_add, Real.sqrt_le_left (by norm_num)]
    norm_num
  · have e : storeResidual ((Store.empty (Fl A)).run farTangentOps) (.lineCircleTangency 4 5) = .ok (lctResGrad (⟨2 ^ 53 - 1⟩ : Fl A) ⟨0⟩ ⟨2 ^ 53 - 1⟩ ⟨3⟩ ⟨2 ^ 53⟩ ⟨1⟩ ⟨1⟩).1 := rfl
    rw [e] at h1
    cases h1
    have x := fun y hy => binary64_exact hA (x := y) hy
    have r0 : A.rnd 0 = 0 := x _ representable_zero
    have r3 : A.rnd 3 = 3 := x _ ⟨3, 0, by norm_num, by norm_num⟩
    have r9 : A.rnd 9 = 9 := x _ ⟨9, 0, by norm_num, by norm_num⟩
    have rm3 : A.rnd (-3) = -3 := x _ ⟨-3, 0, by norm_num, by norm_num⟩
    have r2 : A.rnd 2 = 2 := x _ ⟨2, 0, by norm_num, by norm_num⟩
    have r1 : A.rnd 1 = 1 := x _ ⟨1, 0, by norm_num, by norm_num⟩
    have rm4 : A.rnd (-4) = -4 := x _ ⟨-4, 0, by norm_num, by norm_num⟩
    have ra : A.rnd ((2 ^ 53 - 1) * 2) = (2 ^ 53 - 1) * 2 := x _ ⟨2 ^ 53 - 1, 1, by norm_num, by norm_num⟩
    have rb : A.rnd (2 ^ 53 - 1) = 2 ^ 53 - 1 := x _ ⟨2 ^ 53 - 1, 0, by norm_num, by norm_num⟩
    have rc : A.rnd (2 ^ 53 * -3) = 2 ^ 53 * -3 := x _ ⟨-3, 53, by norm_num, by norm_num⟩
    have e1 : (⟨2 ^ 53 - 1⟩ - ⟨2 ^ 53 - 1⟩ : Fl A) = ⟨0⟩ := congrArg Fl.mk (by rw [sub_self, r0])
    have e2 : (⟨0⟩ - ⟨3⟩ : Fl A) = ⟨-3⟩ := congrArg Fl.mk (by rw [zero_sub, rm3])
    have e3 : (⟨0⟩ * ⟨0⟩ : Fl A) = ⟨0⟩ := congrArg Fl.mk (by rw [mul_zero, r0])
    have e4 : (⟨-3⟩ * ⟨-3⟩ : Fl A) = ⟨9⟩ := congrArg Fl.mk (by rw [show (-3 * -3 : ℝ) = 9 by norm_num, r9])
    have e5 : (⟨0⟩ + ⟨9⟩ : Fl A) = ⟨9⟩ := congrArg Fl.mk (by rw [zero_add, r9])
    have e6 : FloatOps.sqrt (⟨9⟩ : Fl A) = ⟨3⟩ := congrArg Fl.mk (by rw [show (9 : ℝ) = 3 ^ 2 by norm_num, Real.sqrt_sq (by norm_num), r3])
    have e7 : (⟨3⟩ - ⟨1⟩ : Fl A) = ⟨2⟩ := congrArg Fl.mk (by rw [show (3 - 1 : ℝ) = 2 by norm_num, r2])
    have e8 : (⟨1⟩ - ⟨0⟩ : Fl A) = ⟨1⟩ := congrArg Fl.mk (by rw [sub_zero, r1])
    have e9 : (⟨2 ^ 53 - 1⟩ * ⟨2⟩ : Fl A) = ⟨(2 ^ 53 - 1) * 2⟩ := congrArg Fl.mk ra
    have e10 : (⟨2 ^ 53 - 1⟩ * ⟨1⟩ : Fl A) = ⟨2 ^ 53 - 1⟩ := congrArg Fl.mk (by rw [mul_one, rb])
    have e11 : (⟨(2 ^ 53 - 1) * 2⟩ + ⟨2 ^ 53 - 1⟩ : Fl A) = ⟨3 * 2 ^ 53 - 4⟩ :=
      congrArg Fl.mk (by rw [show ((2 ^ 53 - 1) * 2 + (2 ^ 53 - 1) : ℝ) = 3 * 2 ^ 53 - 3 by norm_num, rounded_area hA])
    have e12 : (⟨2 ^ 53⟩ * ⟨-3⟩ : Fl A) = ⟨2 ^ 53 * -3⟩ := congrArg Fl.mk rc
    have e13 : (⟨3 * 2 ^ 53 - 4⟩ + ⟨2 ^ 53 * -3⟩ : Fl A) = ⟨-4⟩ := congrArg Fl.mk (by rw [show (3 * 2 ^ 53 - 4 + 2 ^ 53 * -3 : ℝ) = -4 by norm_num, rm4])
    have e14 : FloatOps.abs (⟨-4⟩ : Fl A) = ⟨4⟩ := congrArg Fl.mk (by norm_num)
    have e15 : FloatOps.eqB (⟨3⟩ : Fl A) 0 = false := decide_eq_false (by show (3 : ℝ) ≠ 0; norm_num)
    simp only [lctResGrad, e1, e2, e3, e4, e5, e6, e7, e8, e9, e10, e11, e12, e13, e14, e15, Bool.false_eq_true, if_false]
    show 1 / 4 < A.rnd (A.rnd (A.rnd (1 / 3) * 4) - 1)
    have b1 := binary64_error hA (1 / 3)
    have b2 := binary64_error hA (A.rnd (1 / 3) * 4)
    have b3 := binary64_error hA (A.rnd (A.rnd (1 / 3) * 4) - 1)
    rw [abs_of_pos (by norm_num : (0 : ℝ) < 1 / 3), abs_le] at b1
    rw [abs_of_pos (by linarith [b1.1] : 0 < A.rnd (1 / 3) * 4), abs_le] at b2
    rw [abs_of_pos (by linarith [b1.1, b2.1] : 0 < A.rnd (A.rnd (1 / 3) * 4) - 1), abs_le] at b3
    linarith [b1.1, b2.1, b3.1, b1.2, b2.2]

end Fiksi
