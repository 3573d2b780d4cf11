import Verif.Proofs.Geometry
import Verif.Proofs.Reaches
import Verif.Model.Scale
/-!
# Meaning of the residuals over exact real numbers (C12, C14, C15, C16)
-/
namespace Fiksi

open Complex Spec Spec.Geo

section
variable {st : Store ℝ}

/-- The elements a line, circle refers to have the right kinds. -/
def RefsOk (st : Store ℝ) : Prop := ∀ (i : Nat) (e : Elem ℝ), st.elems[i]? = some e → ElemOk st e

theorem line_values (hw : RefsOk st) {l : Nat} (h : st.IsLine l) : ∃ p q x y z w, st.elems[l]? = some (.line p q) ∧
    st.elems[p]? = some (.point x y) ∧ st.elems[q]? = some (.point z w) ∧ partsOf st l = [x, y, z, w] := by
  obtain ⟨p, q, hl⟩ := h
  obtain ⟨⟨x, y, hp⟩, ⟨z, w, hq⟩⟩ := hw l _ hl
  exact ⟨p, q, x, y, z, w, hl, hp, hq, by simp [partsOf, ptOf, hl, hp, hq, elemValues]⟩

theorem circle_values (hw : RefsOk st) {l : Nat} (h : st.IsCircle l) : ∃ p q x y v, st.elems[l]? = some (.circle p q) ∧
    st.elems[p]? = some (.point x y) ∧ st.elems[q]? = some (.length v) ∧ partsOf st l = [x, y, v] := by
  obtain ⟨p, q, hl⟩ := h
  obtain ⟨⟨x, y, hp⟩, ⟨z, hq⟩⟩ := hw l _ hl
  exact ⟨p, q, x, y, z, hl, hp, hq, by simp [partsOf, ptOf, hl, hp, hq, elemValues]⟩

theorem point_values {p : Nat} (h : st.IsPoint p) : ∃ x y, st.elems[p]? = some (.point x y) ∧ ptOf st p = [x, y] := by
  obtain ⟨x, y, h⟩ := h
  exact ⟨x, y, h, by simp [ptOf, h, elemValues]⟩

/-- The residual formula vanishes exactly when the geometric relation holds. -/
theorem storeResidual_zero_iff (hw : RefsOk st) {con : Spec.Con ℝ} (hok : st.ConOk con) (hreg : Regular st con) {r : ℝ}
    (h : storeResidual st con = .ok r) : r = 0 ↔ Holds st con := by
  cases con <;> simp only [Store.ConOk] at hok
  · obtain ⟨x, y, h1, e1⟩ := point_values hok.1
    obtain ⟨z, w, h2, e2⟩ := point_values hok.2
    simp only [storeResidual, e1, e2, Except.ok.injEq] at h
    subst h
    simp only [Holds, pointIs_iff h1, pointIs_iff h2, exists_and_left, exists_eq_left, sumSquares, List.foldl_cons, List.foldl_nil, vveResGrad,
      FloatOps.sqrt, zero_add]
    rw [Real.sqrt_eq_zero (by nlinarith [sq_nonneg (z - x), sq_nonneg (w - y)]), Complex.mk.injEq]
    constructor
    · intro h
      constructor <;> nlinarith [sq_nonneg (z - x), sq_nonneg (w - y)]
    · rintro ⟨rfl, rfl⟩; ring
  · obtain ⟨x, y, h1, e1⟩ := point_values hok.1
    obtain ⟨z, w, h2, e2⟩ := point_values hok.2
    simp only [storeResidual, e1, e2, Except.ok.injEq, List.cons_append, List.nil_append, ppd_real] at h
    subst h
    simp only [Holds, pointIs_iff h1, pointIs_iff h2, exists_and_left, exists_eq_left, sub_eq_zero (b := (_ : ℝ)), dist_eq_norm]
  · obtain ⟨x, y, h1, e1⟩ := point_values hok.1
    obtain ⟨z, w, h2, e2⟩ := point_values hok.2.1
    obtain ⟨u, v, h3, e3⟩ := point_values hok.2.2
    simp only [storeResidual, e1, e2, e3, Except.ok.injEq, List.cons_append, List.nil_append, pppa_real] at h
    subst h
    simp only [Regular, pointIs_iff h1, pointIs_iff h2, pointIs_iff h3, exists_and_left, exists_eq_left] at hreg
    obtain ⟨⟨hn1, hn2⟩, hp1, hp2⟩ := hreg
    simp only [Holds, pointIs_iff h1, pointIs_iff h2, pointIs_iff h3, exists_and_left, exists_eq_left, TurnedBy]
    rw [sub_eq_zero, angleFromTo_eq_iff (sub_ne_zero.2 hn1) (sub_ne_zero.2 hn2) hp1 hp2]
  · obtain ⟨x, y, h1, e1⟩ := point_values hok.1
    obtain ⟨p, q, z, w, u, v, h2, h3, h4, e2⟩ := line_values hw hok.2
    simp only [storeResidual, e1, e2, Except.ok.injEq, List.cons_append, List.nil_append, pli_real] at h
    subst h
    simp only [Regular, lineIs_iff h2 h3 h4, exists_and_left, exists_eq_left, and_assoc] at hreg
    simp only [Holds, pointIs_iff h1, lineIs_iff h2 h3 h4, exists_and_left, exists_eq_left, and_assoc]
    exact onLine_iff hreg _
  · obtain ⟨x, y, h1, e1⟩ := point_values hok.1
    obtain ⟨p, q, z, w, u, v, h2, h3, h4, e2⟩ := line_values hw hok.2
    simp only [storeResidual, e1, e2, Except.ok.injEq, List.cons_append, List.nil_append, pld_real] at h
    subst h
    simp only [Regular, lineIs_iff h2 h3 h4, exists_and_left, exists_eq_left, and_assoc] at hreg
    simp only [Holds, pointIs_iff h1, lineIs_iff h2 h3 h4, exists_and_left, exists_eq_left, and_assoc]
    rw [sub_eq_zero]
    exact signedDistance_iff hreg _ _
  · obtain ⟨x, y, h1, e1⟩ := point_values hok.1
    obtain ⟨p, q, z, w, u, h2, h3, h4, e2⟩ := circle_values hw hok.2
    simp only [storeResidual, e1, e2, Except.ok.injEq, List.cons_append, List.nil_append, pci_real] at h
    subst h
    simp only [Holds, pointIs_iff h1, circleIs_iff h2 h3 h4, exists_and_left, exists_eq_left, and_assoc, dist_eq_norm]
    rw [sub_eq_zero]
  · obtain ⟨x, y, h1, e1⟩ := point_values hok.1
    obtain ⟨z, w, h2, e2⟩ := point_values hok.2.1
    obtain ⟨u, v, h3, e3⟩ := point_values hok.2.2.1
    obtain ⟨s, t, h4, e4⟩ := point_values hok.2.2.2
    simp only [storeResidual, e1, e2, e3, e4, Except.ok.injEq, List.cons_append, List.nil_append, ssle_real] at h
    subst h
    simp only [Holds, pointIs_iff h1, pointIs_iff h2, pointIs_iff h3, pointIs_iff h4, exists_and_left, exists_eq_left, dist_eq_norm]
    rw [sub_eq_zero, eq_comm]
  · obtain ⟨p, q, z, w, u, v, h2, h3, h4, e2⟩ := line_values hw hok.1
    obtain ⟨p', q', z', w', u', v', h2', h3', h4', e2'⟩ := line_values hw hok.2
    simp only [storeResidual, e2, e2', Except.ok.injEq, List.cons_append, List.nil_append, lla_real] at h
    subst h
    simp only [Regular, lineIs_iff h2 h3 h4, lineIs_iff h2' h3' h4', exists_and_left, exists_eq_left, and_assoc] at hreg
    simp only [Holds, lineIs_iff h2 h3 h4, lineIs_iff h2' h3' h4', exists_and_left, exists_eq_left, and_assoc, TurnedBy]
    obtain ⟨hn1, hn2, hp1, hp2⟩ := hreg
    rw [sub_eq_zero, angleFromTo_eq_iff (sub_ne_zero.2 hn1.symm) (sub_ne_zero.2 hn2.symm) hp1 hp2]
  · obtain ⟨p, q, z, w, u, v, h2, h3, h4, e2⟩ := line_values hw hok.1
    obtain ⟨p', q', z', w', u', v', h2', h3', h4', e2'⟩ := line_values hw hok.2
    simp only [storeResidual, e2, e2', Except.ok.injEq, List.cons_append, List.nil_append, llpar_real] at h
    subst h
    simp only [Regular, lineIs_iff h2 h3 h4, lineIs_iff h2' h3' h4', exists_and_left, exists_eq_left, and_assoc] at hreg
    simp only [Holds, lineIs_iff h2 h3 h4, lineIs_iff h2' h3' h4', exists_and_left, exists_eq_left, and_assoc]
    rw [neg_eq_zero]
    exact parallel_iff hreg _ _
  · obtain ⟨p, q, z, w, u, v, h2, h3, h4, e2⟩ := line_values hw hok.1
    obtain ⟨p', q', z', w', u', v', h2', h3', h4', e2'⟩ := line_values hw hok.2
    simp only [storeResidual, e2, e2', Except.ok.injEq, List.cons_append, List.nil_append, llperp_real] at h
    subst h
    simp only [Holds, lineIs_iff h2 h3 h4, lineIs_iff h2' h3' h4', exists_and_left, exists_eq_left, and_assoc]
    exact Iff.rfl
  · obtain ⟨p, q, z, w, u, v, h2, h3, h4, e2⟩ := line_values hw hok.1
    obtain ⟨p', q', z', w', u', h2', h3', h4', e2'⟩ := circle_values hw hok.2
    simp only [Regular, lineIs_iff h2 h3 h4, exists_and_left, exists_eq_left, and_assoc] at hreg
    simp only [storeResidual, e2, e2', Except.ok.injEq, List.cons_append, List.nil_append, lct_real hreg] at h
    subst h
    simp only [Holds, lineIs_iff h2 h3 h4, circleIs_iff h2' h3' h4', exists_and_left, exists_eq_left, and_assoc, Tangent]
    rw [sub_eq_zero, infDist_line hreg]

end

/-! ## C12 -/

theorem Reaches.refsOk {counter : Nat} {ops : List (Op ℝ)} {c : Client ℝ} (h : Reaches counter ops c) :
    RefsOk ((Store.empty ℝ).run ops) := h.crel.rel.wfElem

/-- C12: after any history, for every constraint whose configuration is not degenerate (`Regular`), the residual read through its
handle is zero exactly when the geometric relation holds between the current values. -/
theorem C12_zero_residual_iff_partial {counter : Nat} {ops : List (Op ℝ)} {c : Client ℝ} (h : Reaches counter ops c) {i : Nat}
    {hd : Handle} (hh : c.conHandles[i]? = some hd) {con : Spec.Con ℝ} (hcon : ((Store.empty ℝ).run ops).cons[i]? = some con)
    (hreg : Regular ((Store.empty ℝ).run ops) con) :
    ∃ r, c.sys.calculateResidual con.kind hd = .ok r ∧ (r = 0 ↔ Holds ((Store.empty ℝ).run ops) con) := by
  have hr := h.crel
  rw [hr.conHandle (lt_of_getElem? hcon)] at hh
  cases hh
  obtain ⟨r, h1, h2⟩ := hr.calculateResidual hcon
  exact ⟨r, h2, storeResidual_zero_iff h.refsOk (hr.rel.wfCon con (List.mem_of_getElem? hcon)) hreg h1⟩

/-- Three points on the x-axis with a straight-angle constraint. -/
def straightOps (θ : ℝ) : List (Op ℝ) :=
  [.createPoint (-1) 0, .createPoint 0 0, .createPoint 1 0, .createCon (.pointPointPointAngle 0 1 2 θ)]

theorem straight_legal (θ : ℝ) : (Store.empty ℝ).LegalRun (straightOps θ) := by
  simp [straightOps, Store.LegalRun, Store.Legal, Store.empty, Store.step, Store.IsPoint, Store.ConOk]

/-- C12 is false at straight angles: three collinear points enclose the angle `π`, yet the constraint with parameter `π` reports the
residual `-2π`. (The code's difference of two `atan2`s is wrapped to `[-π, π]`, where both ends denote the straight angle.) -/
theorem C12_straight_angle_fails : ∃ c, Reaches 0 (straightOps Real.pi) c ∧
    Holds ((Store.empty ℝ).run (straightOps Real.pi)) (.pointPointPointAngle 0 1 2 Real.pi) ∧
    ∃ hd, c.conHandles[0]? = some hd ∧ c.sys.calculateResidual .pointPointPointAngle hd = .ok (-(2 * Real.pi)) := by
  obtain ⟨c, h⟩ := exists_reaches 0 (straightOps Real.pi) (straight_legal _) (by simp [straightOps])
  have hr := h.crel
  have hcon : ((Store.empty ℝ).run (straightOps Real.pi)).cons[0]? = some (.pointPointPointAngle 0 1 2 Real.pi) := rfl
  refine ⟨c, h, ?_, _, hr.conHandle (lt_of_getElem? hcon), ?_⟩
  · refine ⟨⟨-1, 0⟩, ⟨0, 0⟩, ⟨1, 0⟩, rfl, rfl, rfl, ?_⟩
    have e1 : (⟨-1, 0⟩ : ℂ) - ⟨0, 0⟩ = -1 := by apply Complex.ext <;> simp
    have e2 : (⟨1, 0⟩ : ℂ) - ⟨0, 0⟩ = 1 := by apply Complex.ext <;> simp
    rw [e1, e2, TurnedBy, exp_pi_mul_I]
    simp
  · obtain ⟨r, h1, h2⟩ := hr.calculateResidual hcon
    have h3 : storeResidual ((Store.empty ℝ).run (straightOps Real.pi)) (.pointPointPointAngle 0 1 2 Real.pi) =
      .ok (pppaResGrad (-1) 0 0 0 1 0 Real.pi).1 := rfl
    rw [h3, Except.ok.injEq, pppa_real] at h1
    have e1 : (⟨-1, 0⟩ : ℂ) - ⟨0, 0⟩ = -1 := by apply Complex.ext <;> simp
    have e2 : (⟨1, 0⟩ : ℂ) - ⟨0, 0⟩ = 1 := by apply Complex.ext <;> simp
    have hpi := Real.pi_pos
    rw [e1, e2, angleFromTo, arg_one, arg_neg_one, wrapR, if_neg (by linarith), if_neg (by linarith)] at h1
    rw [show ConstraintTag.pointPointPointAngle = (Spec.Con.pointPointPointAngle 0 1 2 Real.pi : Spec.Con ℝ).kind from rfl, h2, ← h1]
    congr 1
    ring

/-- C12 is false for degenerate lines: a line through a single point is reported tangent to every circle, and every point is
reported to be on it and parallel to everything. -/
theorem C12_degenerate_line_fails (x y cx cy r : ℝ) :
    (lctResGrad x y x y cx cy r).1 = 0 ∧ (pliResGrad cx cy x y x y).1 = 0 := by
  refine ⟨by rw [lct_degenerate rfl], by simp [pliResGrad]⟩

/-- Non-vacuity of C12: a right angle. -/
example : ∃ c, Reaches 0 (straightOps (Real.pi / 2)) c ∧
    Regular ((Store.empty ℝ).run (straightOps (Real.pi / 2))) (.pointPointPointAngle 0 1 2 (Real.pi / 2)) := by
  obtain ⟨c, h⟩ := exists_reaches 0 (straightOps (Real.pi / 2)) (straight_legal _) (by simp [straightOps])
  have := Real.pi_pos
  refine ⟨c, h, ⟨⟨-1, 0⟩, ⟨0, 0⟩, ⟨1, 0⟩, rfl, rfl, rfl, ?_, ?_⟩, by linarith, by linarith⟩ <;>
  · intro h; rw [Complex.mk.injEq] at h; norm_num at h

/-! ## C16 -/

/-- C16: the residual of an angle constraint plus its parameter is always in `[-π, π]`; so with a parameter outside that range the
constraint is reported unsatisfied in every configuration. -/
theorem C16_angle_range {counter : Nat} {ops : List (Op ℝ)} {c : Client ℝ} (h : Reaches counter ops c) {i : Nat}
    {hd : Handle} (hh : c.conHandles[i]? = some hd) {con : Spec.Con ℝ} (hcon : ((Store.empty ℝ).run ops).cons[i]? = some con) {θ : ℝ}
    (hθ : (∃ p q r, con = .pointPointPointAngle p q r θ) ∨ ∃ l m, con = .lineLineAngle l m θ) :
    ∃ r, c.sys.calculateResidual con.kind hd = .ok r ∧ -Real.pi ≤ r + θ ∧ r + θ ≤ Real.pi ∧
      (θ < -Real.pi ∨ Real.pi < θ → r ≠ 0) := by
  have hr := h.crel
  rw [hr.conHandle (lt_of_getElem? hcon)] at hh
  cases hh
  obtain ⟨r, h1, h2⟩ := hr.calculateResidual hcon
  have hok := hr.rel.wfCon con (List.mem_of_getElem? hcon)
  have key : ∃ u v, r = angleFromTo u v - θ := by
    rcases hθ with ⟨p, q, s, rfl⟩ | ⟨l, m, rfl⟩
    · obtain ⟨x, y, g1, e1⟩ := point_values hok.1
      obtain ⟨z, w, g2, e2⟩ := point_values hok.2.1
      obtain ⟨u, v, g3, e3⟩ := point_values hok.2.2
      simp only [storeResidual, e1, e2, e3, Except.ok.injEq, List.cons_append, List.nil_append, pppa_real] at h1
      exact ⟨_, _, h1.symm⟩
    · obtain ⟨p, q, z, w, u, v, g2, g3, g4, e2⟩ := line_values h.refsOk hok.1
      obtain ⟨p', q', z', w', u', v', g2', g3', g4', e2'⟩ := line_values h.refsOk hok.2
      simp only [storeResidual, e2, e2', Except.ok.injEq, List.cons_append, List.nil_append, lla_real] at h1
      exact ⟨_, _, h1.symm⟩
  obtain ⟨u, v, rfl⟩ := key
  obtain ⟨h3, h4⟩ := angleFromTo_range u v
  refine ⟨_, h2, by linarith, by linarith, ?_⟩
  rintro (h5 | h5) h6 <;> linarith

/-- C16, the geometric side: turning by `θ` and by `θ + 2π` is the same relation, so a parameter outside the range does denote a
geometric angle that some configuration realises. -/
theorem C16_full_turn (θ : ℝ) (u v : ℂ) : TurnedBy (θ + 2 * Real.pi) u v ↔ TurnedBy θ u v := by
  unfold TurnedBy
  have : exp (((θ + 2 * Real.pi : ℝ) : ℂ) * I) = exp (θ * I) := by
    push_cast
    rw [add_mul, exp_add, exp_two_pi_mul_I, mul_one]
  rw [this]

/-! ## C14 -/

theorem motion_sub (φ : ℝ) (t p q : ℂ) : motion φ t p - motion φ t q = exp (φ * I) * (p - q) := by
  unfold motion; ring

theorem norm_rot (φ : ℝ) (u : ℂ) : ‖exp (φ * I) * u‖ = ‖u‖ := by
  rw [norm_mul, norm_exp_ofReal_mul_I, one_mul]

theorem conj_rot (φ : ℝ) (u v : ℂ) : (starRingEnd ℂ) (exp (φ * I) * u) * (exp (φ * I) * v) = (starRingEnd ℂ) u * v := by
  have h : (starRingEnd ℂ) (exp (φ * I)) * exp (φ * I) = 1 := by
    rw [mul_comm, mul_conj, normSq_eq_norm_sq, norm_exp_ofReal_mul_I]; simp
  rw [map_mul]
  linear_combination ((starRingEnd ℂ) u * v) * h

theorem crossC_rot (φ : ℝ) (u v : ℂ) : crossC (exp (φ * I) * u) (exp (φ * I) * v) = crossC u v := by
  rw [crossC_eq, crossC_eq, conj_rot]

theorem dotC_rot (φ : ℝ) (u v : ℂ) : dotC (exp (φ * I) * u) (exp (φ * I) * v) = dotC u v := by
  rw [dotC_eq, dotC_eq, conj_rot]

theorem angle_rot (φ : ℝ) {u v : ℂ} (hu : u ≠ 0) (hv : v ≠ 0) (hs : ¬ TurnedBy Real.pi u v) :
    angleFromTo (exp (φ * I) * u) (exp (φ * I) * v) = angleFromTo u v := by
  have ht := angleFromTo_turns hu hv
  obtain ⟨h1, h2⟩ := angleFromTo_range u v
  have h3 : angleFromTo u v ≠ Real.pi := fun h => hs (by rw [h] at ht; exact ht)
  have h4 : angleFromTo u v ≠ -Real.pi := by
    intro h
    apply hs
    rw [h] at ht
    unfold TurnedBy
    rw [ht, exp_pi_mul_I]
    push_cast
    rw [neg_mul, exp_neg, exp_pi_mul_I]
    norm_num
  have hne := exp_ne_zero (φ * I)
  rw [angleFromTo_eq_iff (mul_ne_zero hne hu) (mul_ne_zero hne hv) (lt_of_le_of_ne h1 (Ne.symm h4)) (lt_of_le_of_ne h2 h3),
    norm_rot, norm_rot, mul_div_assoc, mul_div_assoc, ht]
  ring

/-- For an angle constraint: its arms do not vanish and do not point in opposite directions. For other constraints: nothing. -/
def NotStraight (st : Store ℝ) : Spec.Con ℝ → Prop
  | .pointPointPointAngle p q r _ => ∃ P Q R, PointIs st p P ∧ PointIs st q Q ∧ PointIs st r R ∧ P ≠ Q ∧ R ≠ Q ∧
      ¬ TurnedBy Real.pi (P - Q) (R - Q)
  | .lineLineAngle l m _ => ∃ A B C D, LineIs st l A B ∧ LineIs st m C D ∧ A ≠ B ∧ C ≠ D ∧ ¬ TurnedBy Real.pi (B - A) (D - C)
  | _ => True

/-- C14: if the points of one system are those of another one moved by a rigid motion (all else equal), then every constraint that is
not a straight-angle constraint has the same residual in both. -/
theorem C14_rigid_motion_partial {k k' : Nat} {ops ops' : List (Op ℝ)} {c c' : Client ℝ} (h : Reaches k ops c)
    (h' : Reaches k' ops' c') (φ : ℝ) (t : ℂ)
    (he : ((Store.empty ℝ).run ops').elems = ((Store.empty ℝ).run ops).elems.map (mapElem (motion φ t)))
    (hc : ((Store.empty ℝ).run ops').cons = ((Store.empty ℝ).run ops).cons) {i : Nat} {hd hd' : Handle}
    (hh : c.conHandles[i]? = some hd) (hh' : c'.conHandles[i]? = some hd') {con : Spec.Con ℝ}
    (hcon : ((Store.empty ℝ).run ops).cons[i]? = some con) (hs : NotStraight ((Store.empty ℝ).run ops) con) :
    c'.sys.calculateResidual con.kind hd' = c.sys.calculateResidual con.kind hd := by
  have hr := h.crel
  have hr' := h'.crel
  have hcon' : ((Store.empty ℝ).run ops').cons[i]? = some con := by rw [hc]; exact hcon
  rw [hr.conHandle (lt_of_getElem? hcon)] at hh
  rw [hr'.conHandle (lt_of_getElem? hcon')] at hh'
  cases hh
  cases hh'
  obtain ⟨r, h1, h2⟩ := hr.calculateResidual hcon
  obtain ⟨r', h1', h2'⟩ := hr'.calculateResidual hcon'
  rw [h2, h2']
  have hok := hr.rel.wfCon con (List.mem_of_getElem? hcon)
  have hw := h.refsOk
  generalize (Store.empty ℝ).run ops = st at *
  generalize (Store.empty ℝ).run ops' = st' at *
  have hget : ∀ j : Nat, st'.elems[j]? = (st.elems[j]?).map (mapElem (motion φ t)) := by intro j; rw [he, List.getElem?_map]
  have pt : ∀ {p}, st.IsPoint p → ∃ x y x' y', st.elems[p]? = some (.point x y) ∧ ptOf st p = [x, y] ∧ ptOf st' p = [x', y'] ∧
      (⟨x', y'⟩ : ℂ) = motion φ t ⟨x, y⟩ := by
    intro p hp
    obtain ⟨x, y, h1, e1⟩ := point_values hp
    have := hget p
    rw [h1] at this
    simp only [Option.map_some, mapElem] at this
    exact ⟨x, y, _, _, h1, e1, by (simp only [ptOf, this, elemValues]; rfl), rfl⟩
  have ln : ∀ {l}, st.IsLine l → ∃ p q x y z w x' y' z' w', st.elems[l]? = some (.line p q) ∧ st.elems[p]? = some (.point x y) ∧
      st.elems[q]? = some (.point z w) ∧ partsOf st l = [x, y, z, w] ∧ partsOf st' l = [x', y', z', w'] ∧
      (⟨x', y'⟩ : ℂ) = motion φ t ⟨x, y⟩ ∧ (⟨z', w'⟩ : ℂ) = motion φ t ⟨z, w⟩ := by
    intro l hl
    obtain ⟨p, q, x, y, z, w, g1, g2, g3, e⟩ := line_values hw hl
    obtain ⟨_, _, x', y', a1, -, a2, a3⟩ := pt ⟨x, y, g2⟩
    obtain ⟨_, _, z', w', b1, -, b2, b3⟩ := pt ⟨z, w, g3⟩
    rw [g2, Option.some.injEq, Elem.point.injEq] at a1
    rw [g3, Option.some.injEq, Elem.point.injEq] at b1
    obtain ⟨rfl, rfl⟩ := a1
    obtain ⟨rfl, rfl⟩ := b1
    refine ⟨p, q, x, y, z, w, x', y', z', w', g1, g2, g3, e, ?_, a3, b3⟩
    have := hget l
    rw [g1] at this
    simp only [Option.map_some, mapElem] at this
    simp [partsOf, this, a2, b2]
  have ci : ∀ {l}, st.IsCircle l → ∃ x y v x' y', partsOf st l = [x, y, v] ∧ partsOf st' l = [x', y', v] ∧
      (⟨x', y'⟩ : ℂ) = motion φ t ⟨x, y⟩ := by
    intro l hl
    obtain ⟨p, q, x, y, v, g1, g2, g3, e⟩ := circle_values hw hl
    obtain ⟨_, _, x', y', a1, -, a2, a3⟩ := pt ⟨x, y, g2⟩
    rw [g2, Option.some.injEq, Elem.point.injEq] at a1
    obtain ⟨rfl, rfl⟩ := a1
    refine ⟨x, y, v, x', y', e, ?_, a3⟩
    have := hget l
    rw [g1] at this
    simp only [Option.map_some, mapElem] at this
    have h2 := hget q
    rw [g3] at h2
    simp only [Option.map_some, mapElem] at h2
    rw [partsOf, this]
    simp only [a2]
    simp [ptOf, h2, elemValues]
  have hinj : ∀ {a b : ℂ}, a ≠ b → motion φ t a ≠ motion φ t b := by
    intro a b hab hm
    have := motion_sub φ t a b
    rw [hm, sub_self] at this
    exact hab (sub_eq_zero.1 ((mul_eq_zero.1 this.symm).resolve_left (exp_ne_zero _)))
  suffices r = r' by rw [this]
  cases con <;> simp only [Store.ConOk] at hok
  · obtain ⟨x, y, x', y', -, e1, f1, m1⟩ := pt hok.1
    obtain ⟨z, w, z', w', -, e2, f2, m2⟩ := pt hok.2
    simp only [storeResidual, e1, e2, f1, f2, Except.ok.injEq] at h1 h1'
    have key : ∀ x y z w : ℝ, FloatOps.sqrt (sumSquares [(vveResGrad x z).1, (vveResGrad y w).1]) =
        ‖(⟨z, w⟩ : ℂ) - ⟨x, y⟩‖ := by
      intro x y z w
      simp only [sumSquares, vveResGrad, List.foldl_cons, List.foldl_nil, FloatOps.sqrt, zero_add, sub_mk, sqrt_sq_add]
    rw [key] at h1 h1'
    rw [← h1, ← h1', m1, m2, motion_sub, norm_rot]
  · obtain ⟨x, y, x', y', -, e1, f1, m1⟩ := pt hok.1
    obtain ⟨z, w, z', w', -, e2, f2, m2⟩ := pt hok.2
    simp only [storeResidual, e1, e2, f1, f2, Except.ok.injEq, List.cons_append, List.nil_append, ppd_real] at h1 h1'
    rw [← h1, ← h1', m1, m2, motion_sub, norm_rot]
  · obtain ⟨x, y, x', y', g1, e1, f1, m1⟩ := pt hok.1
    obtain ⟨z, w, z', w', g2, e2, f2, m2⟩ := pt hok.2.1
    obtain ⟨u, v, u', v', g3, e3, f3, m3⟩ := pt hok.2.2
    simp only [storeResidual, e1, e2, f1, f2, e3, f3, Except.ok.injEq, List.cons_append, List.nil_append, pppa_real] at h1 h1'
    simp only [NotStraight, pointIs_iff g1, pointIs_iff g2, pointIs_iff g3, exists_and_left, exists_eq_left] at hs
    rw [← h1, ← h1', m1, m2, m3, motion_sub, motion_sub, angle_rot φ (sub_ne_zero.2 hs.1) (sub_ne_zero.2 hs.2.1) hs.2.2]
  · obtain ⟨x, y, x', y', -, e1, f1, m1⟩ := pt hok.1
    obtain ⟨p, q, a, b, d, e, a', b', d', e', -, -, -, e2, f2, m2, m3⟩ := ln hok.2
    simp only [storeResidual, e1, e2, f1, f2, Except.ok.injEq, List.cons_append, List.nil_append, pli_real] at h1 h1'
    rw [← h1, ← h1', m1, m2, m3, motion_sub, motion_sub, crossC_rot]
  · obtain ⟨x, y, x', y', -, e1, f1, m1⟩ := pt hok.1
    obtain ⟨p, q, a, b, d, e, a', b', d', e', -, -, -, e2, f2, m2, m3⟩ := ln hok.2
    simp only [storeResidual, e1, e2, f1, f2, Except.ok.injEq, List.cons_append, List.nil_append, pld_real] at h1 h1'
    rw [← h1, ← h1', m1, m2, m3, motion_sub, motion_sub, crossC_rot, norm_rot]
  · obtain ⟨x, y, x', y', -, e1, f1, m1⟩ := pt hok.1
    obtain ⟨a, b, v, a', b', e2, f2, m2⟩ := ci hok.2
    simp only [storeResidual, e1, e2, f1, f2, Except.ok.injEq, List.cons_append, List.nil_append, pci_real] at h1 h1'
    rw [← h1, ← h1', m1, m2, motion_sub, norm_rot]
  · obtain ⟨x, y, x', y', -, e1, f1, m1⟩ := pt hok.1
    obtain ⟨z, w, z', w', -, e2, f2, m2⟩ := pt hok.2.1
    obtain ⟨u, v, u', v', -, e3, f3, m3⟩ := pt hok.2.2.1
    obtain ⟨a, b, a', b', -, e4, f4, m4⟩ := pt hok.2.2.2
    simp only [storeResidual, e1, e2, f1, f2, e3, f3, e4, f4, Except.ok.injEq, List.cons_append, List.nil_append, ssle_real] at h1 h1'
    rw [← h1, ← h1', m1, m2, m3, m4, motion_sub, motion_sub, norm_rot, norm_rot]
  · obtain ⟨p, q, a, b, d, e, a', b', d', e', g1, g2, g3, e1, f1, m1, m2⟩ := ln hok.1
    obtain ⟨p2, q2, a2, b2, d2, ee2, a2', b2', d2', ee2', k1, k2, k3, e2, f2, m3, m4⟩ := ln hok.2
    simp only [storeResidual, e1, e2, f1, f2, Except.ok.injEq, List.cons_append, List.nil_append, lla_real] at h1 h1'
    simp only [NotStraight, lineIs_iff g1 g2 g3, lineIs_iff k1 k2 k3, exists_and_left, exists_eq_left, and_assoc] at hs
    rw [← h1, ← h1', m1, m2, m3, m4, motion_sub, motion_sub, angle_rot φ (sub_ne_zero.2 hs.1.symm) (sub_ne_zero.2 hs.2.1.symm) hs.2.2]
  · obtain ⟨p, q, a, b, d, e, a', b', d', e', g1, g2, g3, e1, f1, m1, m2⟩ := ln hok.1
    obtain ⟨p2, q2, a2, b2, d2, ee2, a2', b2', d2', ee2', k1, k2, k3, e2, f2, m3, m4⟩ := ln hok.2
    simp only [storeResidual, e1, e2, f1, f2, Except.ok.injEq, List.cons_append, List.nil_append, llpar_real] at h1 h1'
    rw [← h1, ← h1', m1, m2, m3, m4, motion_sub, motion_sub, crossC_rot]
  · obtain ⟨p, q, a, b, d, e, a', b', d', e', g1, g2, g3, e1, f1, m1, m2⟩ := ln hok.1
    obtain ⟨p2, q2, a2, b2, d2, ee2, a2', b2', d2', ee2', k1, k2, k3, e2, f2, m3, m4⟩ := ln hok.2
    simp only [storeResidual, e1, e2, f1, f2, Except.ok.injEq, List.cons_append, List.nil_append, llperp_real] at h1 h1'
    rw [← h1, ← h1', m1, m2, m3, m4, motion_sub, motion_sub, dotC_rot]
  · obtain ⟨p, q, a, b, d, e, a', b', d', e', g1, g2, g3, e1, f1, m1, m2⟩ := ln hok.1
    obtain ⟨a2, b2, v, a2', b2', e2, f2, m3⟩ := ci hok.2
    simp only [storeResidual, e1, e2, f1, f2, Except.ok.injEq, List.cons_append, List.nil_append] at h1 h1'
    by_cases hab : (⟨a, b⟩ : ℂ) = ⟨d, e⟩
    · have hab' : (⟨a', b'⟩ : ℂ) = ⟨d', e'⟩ := by rw [m1, m2, hab]
      rw [lct_degenerate hab] at h1
      rw [lct_degenerate hab'] at h1'
      rw [← h1, ← h1']
    · have hab' : (⟨a', b'⟩ : ℂ) ≠ ⟨d', e'⟩ := by rw [m1, m2]; exact hinj hab
      rw [lct_real hab] at h1
      rw [lct_real hab'] at h1'
      rw [← h1, ← h1', m1, m2, m3, motion_sub, motion_sub, crossC_rot, norm_rot]

/-- The moved configuration is always reachable (the hypotheses of C14 can be met for every history and motion). -/
theorem C14_moved_reachable {k : Nat} {ops : List (Op ℝ)} {c : Client ℝ} (h : Reaches k ops c) (hs : ops.length + 1 < 2 ^ 30) (φ : ℝ)
    (t : ℂ) : ∃ ops' c', Reaches k ops' c' ∧
      ((Store.empty ℝ).run ops').elems = ((Store.empty ℝ).run ops).elems.map (mapElem (motion φ t)) ∧
      ((Store.empty ℝ).run ops').cons = ((Store.empty ℝ).run ops).cons := by
  have hl : (Store.empty ℝ).LegalRun (ops ++ [.solve (((Store.empty ℝ).run ops).elems.map (mapElem (motion φ t)))]) := by
    rw [legalRun_append]
    refine ⟨h.legal, ?_, trivial⟩
    simp only [Store.Legal]
    rw [List.forall₂_map_right_iff]
    exact List.forall₂_same.2 (fun e _ => by cases e <;> simp [mapElem, SameShape])
  obtain ⟨c', h'⟩ := exists_reaches k _ hl (by simp; omega)
  refine ⟨_, c', h', ?_, ?_⟩ <;> rw [store_run_append] <;> rfl

/-- C14 is false at straight angles: turning three collinear points by a half turn changes the residual of the straight-angle
constraint from `-2π` to `0`. -/
theorem C14_straight_angle_fails :
    (pppaResGrad (-1) 0 0 0 1 0 Real.pi).1 = -(2 * Real.pi) ∧ (pppaResGrad 1 0 0 0 (-1) 0 Real.pi).1 = 0 ∧
    motion Real.pi 0 ⟨-1, 0⟩ = ⟨1, 0⟩ ∧ motion Real.pi 0 ⟨0, 0⟩ = ⟨0, 0⟩ ∧ motion Real.pi 0 ⟨1, 0⟩ = ⟨-1, 0⟩ := by
  have e1 : (⟨-1, 0⟩ : ℂ) - ⟨0, 0⟩ = -1 := by apply Complex.ext <;> simp
  have e2 : (⟨1, 0⟩ : ℂ) - ⟨0, 0⟩ = 1 := by apply Complex.ext <;> simp
  have hpi := Real.pi_pos
  refine ⟨?_, ?_, ?_, ?_, ?_⟩
  · rw [pppa_real, e1, e2, angleFromTo, arg_one, arg_neg_one, wrapR, if_neg (by linarith), if_neg (by linarith)]
    ring
  · rw [pppa_real, e1, e2, angleFromTo, arg_one, arg_neg_one, wrapR, if_neg (by linarith), if_neg (by linarith)]
    ring
  all_goals
    unfold motion
    rw [exp_pi_mul_I]
    apply Complex.ext <;> simp

/-! ## C15 -/

/-- The power of the scale with which a residual grows: 1 for lengths, 2 for products of lengths, 0 for angles. -/
def lengthDegree {F : Type} : Expr F → Nat
  | .pointPointPointAngle .. => 0
  | .lineLineAngle .. => 0
  | .pointLineIncidence .. => 2
  | .lineLineParallelism .. => 2
  | .lineLinePerpendicularity .. => 2
  | _ => 1

theorem scale_norm {k : ℝ} (hk : 0 < k) (a b c d : ℝ) :
    ‖(⟨a * k, b * k⟩ : ℂ) - ⟨c * k, d * k⟩‖ = k * ‖(⟨a, b⟩ : ℂ) - ⟨c, d⟩‖ := by
  have : (⟨a * k, b * k⟩ : ℂ) - ⟨c * k, d * k⟩ = (k : ℂ) * (⟨a, b⟩ - ⟨c, d⟩) := by
    apply Complex.ext <;> simp <;> ring
  rw [this, norm_mul, norm_real, Real.norm_of_nonneg hk.le]

theorem scale_angle {k : ℝ} (hk : 0 < k) (u v : ℂ) : angleFromTo (k * u) (k * v) = angleFromTo u v := by
  unfold angleFromTo
  rw [arg_real_mul _ hk, arg_real_mul _ hk]

theorem scale_sub (k a b c d : ℝ) : (⟨a * k, b * k⟩ : ℂ) - ⟨c * k, d * k⟩ = (k : ℂ) * (⟨a, b⟩ - ⟨c, d⟩) := by
  apply Complex.ext <;> simp <;> ring

theorem crossC_scale (k : ℝ) (u v : ℂ) : crossC (k * u) (k * v) = k ^ 2 * crossC u v := by
  simp [crossC]; ring

theorem dotC_scale (k : ℝ) (u v : ℂ) : dotC (k * u) (k * v) = k ^ 2 * dotC u v := by
  simp [dotC]; ring

/-- The residual of a transformed expression on scaled values. -/
theorem residual_scale {k : ℝ} (hk : 0 < k) (e : Expr ℝ) (vs : List ℝ) {rg rg' : ℝ × List ℝ}
    (h : e.computeResidualAndGradient vs = .ok rg)
    (h' : (e.transform k).computeResidualAndGradient (vs.map (· * k)) = .ok rg') : rg'.1 = k ^ lengthDegree e * rg.1 := by
  unfold Expr.computeResidualAndGradient at h
  split at h <;> simp only [Except.ok.injEq, reduceCtorEq] at h <;>
    simp only [Expr.transform, List.map_cons, List.map_nil, Expr.computeResidualAndGradient, Except.ok.injEq] at h' <;>
    subst h <;> subst h'
  · simp only [vveResGrad, lengthDegree]; ring
  · simp only [ppd_real, lengthDegree, scale_norm hk]; ring
  · simp only [pppa_real, lengthDegree, scale_sub, scale_angle hk]; ring
  · simp only [pli_real, lengthDegree, scale_sub, crossC_scale]
  · simp only [pld_real, lengthDegree]
    rw [scale_norm hk, scale_sub, scale_sub, crossC_scale]
    field_simp
  · simp only [pci_real, lengthDegree, scale_norm hk]; ring
  · simp only [ssle_real, lengthDegree, scale_norm hk]; ring
  · simp only [lla_real, lengthDegree, scale_sub, scale_angle hk]; ring
  · simp only [llpar_real, lengthDegree, scale_sub, crossC_scale]; ring
  · simp only [llperp_real, lengthDegree, scale_sub, dotC_scale]
  · rename_i a b c d e f g
    by_cases hab : (⟨a, b⟩ : ℂ) = ⟨c, d⟩
    · rw [Complex.mk.injEq] at hab
      obtain ⟨rfl, rfl⟩ := hab
      rw [lct_degenerate rfl, lct_degenerate rfl]; simp
    · have hab' : (⟨a * k, b * k⟩ : ℂ) ≠ ⟨c * k, d * k⟩ := by
        intro h
        rw [Complex.mk.injEq] at h
        exact hab (Complex.ext (mul_right_cancel₀ hk.ne' h.1) (mul_right_cancel₀ hk.ne' h.2))
      rw [lct_real hab, lct_real hab', scale_norm hk, scale_sub, scale_sub, crossC_scale, abs_mul,
        abs_of_pos (by positivity : 0 < k ^ 2)]
      simp only [lengthDegree]
      field_simp

theorem mapM_idx_scale (vars : List ℝ) (k : ℝ) (l : List Nat) {vs : List ℝ}
    (h : l.mapM (fun i => do let v ← identityMap vars i; pure v.value : Nat → R ℝ) = .ok vs) :
    l.mapM (fun i => do let v ← identityMap (vars.map (· * k)) i; pure v.value : Nat → R ℝ) = .ok (vs.map (· * k)) := by
  induction l generalizing vs with
  | nil =>
    simp only [List.mapM_nil, pure_eq_ok, Except.ok.injEq] at h
    subst h
    rfl
  | cons a l ih =>
    rw [List.mapM_cons, bind_eq_ok] at h
    obtain ⟨x, h1, h⟩ := h
    rw [bind_eq_ok] at h
    obtain ⟨xs, h2, h⟩ := h
    simp only [pure_eq_ok, Except.ok.injEq] at h
    subst h
    rw [List.mapM_cons, ih h2]
    simp only [identityMap, bind_eq_ok, idx_eq_ok, pure_eq_ok, Except.ok.injEq] at h1
    obtain ⟨w, ⟨v, h3, rfl⟩, rfl⟩ := h1
    have h4 : (vars.map (· * k))[a]? = some (v * k) := by rw [List.getElem?_map, h3]; rfl
    simp only [identityMap, idx_of h4, ok_bind, pure_eq_ok, Variable.value]
    rfl

/-- C15: for every positive scale, the residual of every transformed expression on the scaled values equals the original residual
times the scale factor to a fixed power (0 for angles, 1 for lengths, 2 for products of lengths); so it vanishes exactly when the
original one does. `k` is the reciprocal of the scale. -/
theorem C15_rescaling {k : ℝ} (hk : 0 < k) (e : Expr ℝ) (vars : List ℝ) {r : ℝ}
    (h : e.calculateResidual (identityMap vars) = .ok r) :
    (e.transform k).calculateResidual (identityMap (vars.map (· * k))) = .ok (k ^ lengthDegree e * r) ∧
      (k ^ lengthDegree e * r = 0 ↔ r = 0) := by
  refine ⟨?_, by simp [hk.ne']⟩
  unfold Expr.calculateResidual at h ⊢
  rw [bind_eq_ok] at h
  obtain ⟨vs, h1, h⟩ := h
  rw [bind_eq_ok] at h
  obtain ⟨rg, h2, h⟩ := h
  simp only [pure_eq_ok, Except.ok.injEq] at h
  subst h
  have hv : (e.transform k).variableIndices = e.variableIndices := by cases e <;> rfl
  rw [hv, mapM_idx_scale vars k _ h1, ok_bind]
  have : ∃ rg', (e.transform k).computeResidualAndGradient (vs.map (· * k)) = .ok rg' := by
    unfold Expr.computeResidualAndGradient at h2
    split at h2 <;> first | exact ⟨_, rfl⟩ | simp at h2
  obtain ⟨rg', h3⟩ := this
  rw [h3, ok_bind, ← residual_scale hk e vs h2 h3]
  rfl

/-- The sum of squares over the reals. -/
theorem sumSquares_real (vs : List ℝ) : sumSquares vs = (vs.map (fun v => v ^ 2)).sum := by
  have : ∀ (a : ℝ), vs.foldl (fun acc v => acc + v * v) a = a + (vs.map (fun v => v ^ 2)).sum := by
    induction vs with
    | nil => simp
    | cons v vs ih => intro a; rw [List.foldl_cons, ih]; simp; ring
  rw [sumSquares, this, zero_add]

theorem sumSquares_pos {vs : List ℝ} {v : ℝ} (hv : v ∈ vs) (h0 : v ≠ 0) : 0 < sumSquares vs := by
  rw [sumSquares_real]
  have h1 : v ^ 2 ≤ (vs.map (fun v => v ^ 2)).sum :=
    List.single_le_sum (by intro x hx; rw [List.mem_map] at hx; obtain ⟨y, -, rfl⟩ := hx; positivity) _
      (List.mem_map.2 ⟨v, hv, rfl⟩)
  have : 0 < v ^ 2 := by positivity
  linarith

/-- C15 for the scale the solver uses: it is positive as soon as some variable or distance parameter is nonzero; so the scaled
residuals vanish exactly when the originals do. -/
theorem C15_system_scale (s : System ℝ) (hs : (∃ v ∈ s.vars, v ≠ 0) ∨ ∃ e ∈ s.expressions, ∃ d, e.lengthParameter = some d ∧ d ≠ 0) :
    0 < s.scale ∧ ∀ (i : Nat) (e : Expr ℝ) (r : ℝ), s.expressions[i]? = some e → e.calculateResidual (identityMap s.vars) = .ok r →
      ∃ e' r', s.scaledExpressions[i]? = some e' ∧ e'.calculateResidual (identityMap s.scaledVariables) = .ok r' ∧
        r = s.scale ^ lengthDegree e * r' ∧ (r' = 0 ↔ r = 0) := by
  have hpos : 0 < s.scale := by
    have hex : ∃ v ∈ s.vars ++ s.expressions.filterMap Expr.lengthParameter, v ≠ 0 := by
      rcases hs with ⟨v, hv, h0⟩ | ⟨e, he, d, hd, h0⟩
      · exact ⟨v, by simp [hv], h0⟩
      · exact ⟨d, by rw [List.mem_append, List.mem_filterMap]; exact .inr ⟨e, he, hd⟩, h0⟩
    obtain ⟨v, hv, h0⟩ := hex
    unfold System.scale rootMeanSquares meanSquares
    refine Real.sqrt_pos.2 (div_pos (sumSquares_pos hv h0) ?_)
    have := List.length_pos_of_mem hv
    show (0 : ℝ) < ((_ : Nat) : ℝ)
    exact_mod_cast this
  refine ⟨hpos, ?_⟩
  intro i e r he hr
  have hk : 0 < 1 / s.scale := by positivity
  obtain ⟨h1, h2⟩ := C15_rescaling hk e s.vars hr
  refine ⟨_, _, ?_, h1, ?_, h2⟩
  · rw [System.scaledExpressions, List.getElem?_map, he]; rfl
  · rw [← mul_assoc, ← mul_pow, mul_one_div_cancel hpos.ne', one_pow, one_mul]

/-- The scale of a system whose variables and distances are all zero is zero: `solve` then divides by zero (in `f64` the scaled
values are NaN). -/
theorem C15_zero_scale (s : System ℝ) (hv : ∀ v ∈ s.vars, v = 0)
    (he : ∀ e ∈ s.expressions, ∀ d, e.lengthParameter = some d → d = 0) : s.scale = 0 := by
  have hall : ∀ v ∈ s.vars ++ s.expressions.filterMap Expr.lengthParameter, v = 0 := by
    intro v h
    rw [List.mem_append, List.mem_filterMap] at h
    rcases h with h | ⟨e, h1, h2⟩
    · exact hv v h
    · exact he e h1 v h2
  unfold System.scale rootMeanSquares meanSquares
  have : sumSquares (s.vars ++ s.expressions.filterMap Expr.lengthParameter) = 0 := by
    rw [sumSquares_real]
    apply List.sum_eq_zero
    intro x hx
    rw [List.mem_map] at hx
    obtain ⟨y, hy, rfl⟩ := hx
    rw [hall y hy]; simp
  rw [this, zero_div]
  exact Real.sqrt_zero

example : (1 : ℝ) ∈ ([1, 2] : List ℝ) ∧ (1 : ℝ) ≠ 0 := by simp

end Fiksi
