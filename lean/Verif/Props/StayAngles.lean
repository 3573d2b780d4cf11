import Verif.Props.StayRounded
import Verif.Proofs.StayAngles
/-!
# A figure with angles and tangents that satisfies its constraints stays in place, in rounded arithmetic (C72)
-/
namespace Fiksi

open Spec Spec.Geo

section
variable {A : Arith} {u : ℝ} (hA : A.Accurate u) (hu : u ≤ 1 / 2 ^ 53)
include hA hu

/-- The factor that `solve` computes is not too small. -/
theorem Rel.factor_low {s : System (Fl A)} {st : Store (Fl A)} (hr : Rel s st) (hn : st.real.numbers.length < 2 ^ 19) (hσ : 0 < st.real.size) :
    0 < (1 / s.scale).val ∧ 99 / 100 ≤ (1 / s.scale).val * st.real.size := by
  have hu0 := hA.pos
  obtain ⟨hs, -, -⟩ := hr.factor hA hu hn hσ
  have hl : (s.vars ++ s.expressions.filterMap Expr.lengthParameter).length = st.real.numbers.length := by rw [← hr.numbers, List.length_map]
  have hne : s.vars ++ s.expressions.filterMap Expr.lengthParameter ≠ [] := by
    intro he
    have : st.real.numbers = [] := by rw [← hr.numbers, he]; rfl
    rw [Store.size, this] at hσ
    simp at hσ
  obtain ⟨-, h1⟩ := rootMeanSquares_bounds hA hu (by rw [hl]; omega) hne
  have hsize : √(((s.vars ++ s.expressions.filterMap Expr.lengthParameter).map (fun v => v.val * v.val)).sum / (s.vars ++ s.expressions.filterMap Expr.lengthParameter).length) = st.real.size := by
    rw [Store.size, ← hr.numbers, List.map_map, List.length_map]
    congr 4
    funext v
    exact (sq v.val).symm
  rw [hsize] at h1
  have h1' : s.scale.val ≤ (1 + 1 / 2 ^ 20) * st.real.size := h1
  have h2 := (rnd_bounds hA (x := 1 / s.scale.val) (by positivity)).1
  have h3 : (1 / s.scale).val = A.rnd (1 / s.scale.val) := rfl
  rw [← h3] at h2
  have h4 : 999 / 1000 ≤ 1 / s.scale.val * st.real.size := by
    rw [one_div, le_inv_mul_iff₀ hs]
    nlinarith
  have h5 : 999 / 1000 * (1 / s.scale.val) ≤ (1 / s.scale).val := by
    refine le_trans (mul_le_mul_of_nonneg_right ?_ (by positivity)) h2
    linarith
  have h6 := mul_le_mul_of_nonneg_right h5 hσ.le
  have h7 := mul_le_mul_of_nonneg_left h4 (show (0 : ℝ) ≤ 999 / 1000 by norm_num)
  refine ⟨lt_of_lt_of_le (by positivity) h5, ?_⟩
  rw [mul_assoc] at h6
  linarith

end

/-- With fewer than `2¹³` calls, residuals of up to `2/10⁷` stop the optimisers. -/
theorem few_stop {n : Nat} (hn : n < 2 ^ 13) : (2 * n : ℕ) * ((2 : ℝ) / 10 ^ 7) ^ 2 ≤ 65 / 10 ^ 10 := by
  have : ((2 * n : ℕ) : ℝ) ≤ 2 ^ 14 := by exact_mod_cast (by omega : 2 * n ≤ 2 ^ 14)
  exact (mul_le_mul_of_nonneg_right this (by positivity)).trans (by norm_num)

/-- The residuals of a figure that satisfies its constraints up to a ten-millionth, in the scaled problem. -/
theorem Reaches.scaled_any_small {A : Arith} {u : ℝ} (hA : A.Accurate u) (hu : u ≤ 1 / 2 ^ 53) {counter : Nat} {ops : List (Op (Fl A))}
    {c : Client (Fl A)} (h : Reaches counter ops c) (hshort : ops.length < 2 ^ 13) (hσ : 0 < ((Store.empty (Fl A)).run ops).real.size)
    (hroom : ∀ con ∈ ((Store.empty (Fl A)).run ops).cons, Roomy ((Store.empty (Fl A)).run ops).real (((Store.empty (Fl A)).run ops).real.size / 100) con.real)
    (hdev : ∀ con ∈ ((Store.empty (Fl A)).run ops).cons, ∃ x t, Deviation ((Store.empty (Fl A)).run ops).real con.real x t ∧ |x| ≤ ((Store.empty (Fl A)).run ops).real.size ^ con.degree / 10 ^ 7) :
    ∀ e ∈ c.sys.scaledExpressions, ∀ r, e.calculateResidual (identityMap c.sys.scaledVariables) = .ok r → |r.val| ≤ 2 / 10 ^ 7 := by
  have hr : Rel c.sys ((Store.empty (Fl A)).run ops) := h.crel.rel
  obtain ⟨n1, n2⟩ := run_size (Store.empty (Fl A)) ops h.legal
  have n3 := numbers_length ((Store.empty (Fl A)).run ops)
  simp only [Store.empty, List.length_nil, Nat.zero_add] at n1 n2
  have n1' : ((Store.empty (Fl A)).run ops).elems.length ≤ ops.length := n1
  have n2' : ((Store.empty (Fl A)).run ops).cons.length ≤ ops.length := n2
  obtain ⟨hs, -, hkσ⟩ := hr.factor hA hu (by omega) hσ
  obtain ⟨hk, hkσ'⟩ := hr.factor_low hA hu (by omega) hσ
  have hmem := hr.bounded hA hu (n := 3 * 2 ^ 13) (by omega) (by norm_num) hσ (B := 160) (by norm_num) (by norm_num)
  exact hr.scaled_small (fun con hcon => hr.scaled_any hA hu hk (fun x hx => hmem x (List.mem_append_left _ hx))
    (fun e he d hd => hmem d (List.mem_append_right _ (List.mem_filterMap.2 ⟨e, he, hd⟩))) hσ.le hkσ hkσ' hcon (hroom con hcon) (hdev con hcon))

/-- C72: a figure that satisfies constraints of any kind up to a ten-millionth of its size stays in place, up to rounding. In any arithmetic with a relative error of at most `u ≤ 2⁻⁵³`, after any legal
history of fewer than `2¹³` calls, `solve` without perturbation, by either optimiser and with either of the decomposers `None` and `SinglePass`, returns, and every coordinate and length has changed
by at most `4·u` of itself, if lines under a point-line distance, an angle or a tangency and the arms of angles are at least a hundredth of the figure's size long, and no angle is straight
(`Spec.Geo.Roomy`). (The full claim is that nothing moves at all: `C72_stays_exactly_fails`. Missing: short arms, where residuals are ill conditioned; straight angles, where rounding may turn a
residual of `0` into one of `2π`. `RecursiveAssembly`: `C72_assembly_stays_partial`.) -/
theorem C72_any_stays_partial {A : Arith} {u : ℝ} (hA : A.Accurate u) (hu : u ≤ 1 / 2 ^ 53) (cast : Fl A → Int) {sort : SortByKey} (hsort : Sorts sort) {counter : Nat} {ops : List (Op (Fl A))}
    {c : Client (Fl A)} (h : Reaches counter ops c) (hshort : ops.length < 2 ^ 13) (hσ : 0 < ((Store.empty (Fl A)).run ops).real.size)
    (hroom : ∀ con ∈ ((Store.empty (Fl A)).run ops).cons, Roomy ((Store.empty (Fl A)).run ops).real (((Store.empty (Fl A)).run ops).real.size / 100) con.real)
    (hdev : ∀ con ∈ ((Store.empty (Fl A)).run ops).cons, ∃ x t, Deviation ((Store.empty (Fl A)).run ops).real con.real x t ∧ |x| ≤ ((Store.empty (Fl A)).run ops).real.size ^ con.degree / 10 ^ 7)
    {fuel : Nat} {ord : HashOrder} (hord : ord.Ok) {opts : SolvingOptions} (hd : opts.decomposer ≠ .recursiveAssembly) (hp : opts.perturb = false) :
    ∃ s' result, c.sys.solve (crateOptimize (qrLeastSquares sort (colamdOfStructure cast) : LeastSquares (Fl A)) fuel) ord opts = .ok s' ∧
      Reaches counter (ops ++ [.solve result]) { c with sys := s' } ∧ List.Forall₂ (Elem.Near (4 * u)) ((Store.empty (Fl A)).run ops).elems result := by
  exact h.stays_of_small hA hu cast hsort (by omega) hσ (few_stop hshort) (h.scaled_any_small hA hu hshort hσ hroom hdev) hord hd hp

/-- A constraint that holds is missed by nothing. -/
theorem any_holds_deviation {con : Spec.Con ℝ} {st : Store ℝ} (h : Holds st con) : ∃ t, Deviation st con 0 t := by
  cases con
  case pointPointPointAngle =>
    obtain ⟨P, Q, R, h1, h2, h3, h4⟩ := h
    exact ⟨_, P, Q, R, h1, h2, h3, by rw [add_zero]; exact h4, rfl⟩
  case pointLineDistance =>
    obtain ⟨P, A, B, h1, h2, h3⟩ := h
    exact ⟨_, P, A, B, h1, h2, by rw [add_zero]; exact h3, rfl⟩
  case lineLineAngle =>
    obtain ⟨A, B, C, D, h1, h2, h3⟩ := h
    exact ⟨_, A, B, C, D, h1, h2, by rw [add_zero]; exact h3, rfl⟩
  case lineCircleTangency =>
    obtain ⟨A, B, C, r, h1, h2, h3⟩ := h
    exact ⟨_, A, B, C, r, h1, h2, by rw [h3, sub_self], rfl⟩
  all_goals exact holds_deviation rfl h

/-- C72 for a figure whose constraints hold exactly (`Spec.Geo.Holds`, for the numbers as stored). -/
theorem C72_any_satisfied_stays_partial {A : Arith} {u : ℝ} (hA : A.Accurate u) (hu : u ≤ 1 / 2 ^ 53) (cast : Fl A → Int) {sort : SortByKey} (hsort : Sorts sort) {counter : Nat}
    {ops : List (Op (Fl A))} {c : Client (Fl A)} (h : Reaches counter ops c) (hshort : ops.length < 2 ^ 13) (hσ : 0 < ((Store.empty (Fl A)).run ops).real.size)
    (hcons : ∀ con ∈ ((Store.empty (Fl A)).run ops).cons, Roomy ((Store.empty (Fl A)).run ops).real (((Store.empty (Fl A)).run ops).real.size / 100) con.real ∧
      Holds ((Store.empty (Fl A)).run ops).real con.real)
    {fuel : Nat} {ord : HashOrder} (hord : ord.Ok) {opts : SolvingOptions} (hd : opts.decomposer ≠ .recursiveAssembly) (hp : opts.perturb = false) :
    ∃ s' result, c.sys.solve (crateOptimize (qrLeastSquares sort (colamdOfStructure cast) : LeastSquares (Fl A)) fuel) ord opts = .ok s' ∧
      Reaches counter (ops ++ [.solve result]) { c with sys := s' } ∧ List.Forall₂ (Elem.Near (4 * u)) ((Store.empty (Fl A)).run ops).elems result := by
  refine C72_any_stays_partial hA hu cast hsort h hshort hσ (fun con hcon => (hcons con hcon).1) (fun con hcon => ?_) hord hd hp
  obtain ⟨t, ht⟩ := any_holds_deviation (hcons con hcon).2
  exact ⟨0, t, ht, by rw [abs_zero]; positivity⟩

/-! ## A figure with an angle, a distance from a line and a tangent -/

/-- A right angle at the origin with arms of lengths 3 and 4, and a circle about the end of the longer arm that touches the other. -/
noncomputable def tangentOps {A : Arith} : List (Op (Fl A)) :=
  [.createPoint ⟨0⟩ ⟨0⟩, .createPoint ⟨3⟩ ⟨0⟩, .createPoint ⟨0⟩ ⟨4⟩, .createLine 0 1, .createLength ⟨4⟩, .createCircle 2 4, .createCon (.pointPointPointAngle 1 0 2 ⟨A.rnd (Real.pi / 2)⟩),
    .createCon (.pointLineDistance 2 3 ⟨4⟩), .createCon (.lineCircleTangency 3 5)]

theorem tangentOps_reaches {A : Arith} : ∃ c, Reaches 0 (tangentOps (A := A)) c :=
  exists_reaches 0 tangentOps (by simp [tangentOps, Store.LegalRun, Store.Legal, Store.empty, Store.step, Store.IsPoint, Store.IsLine, Store.IsCircle, Store.IsLength, Store.ConOk]) (by simp [tangentOps])

/-- The hypotheses of `C72_any_stays_partial` are met in binary64, where `π/2` is rounded. -/
example : ∃ c, Reaches 0 (tangentOps (A := binary64)) c ∧ binary64.Accurate (1 / 2 ^ 53) ∧ 0 < ((Store.empty (Fl binary64)).run tangentOps).real.size ∧
    ((Store.empty (Fl binary64)).run tangentOps).cons.length = 3 ∧
    (∀ con ∈ ((Store.empty (Fl binary64)).run tangentOps).cons, Roomy ((Store.empty (Fl binary64)).run tangentOps).real (((Store.empty (Fl binary64)).run tangentOps).real.size / 100) con.real) ∧
    ∀ con ∈ ((Store.empty (Fl binary64)).run tangentOps).cons, ∃ x t, Deviation ((Store.empty (Fl binary64)).run tangentOps).real con.real x t ∧
      |x| ≤ ((Store.empty (Fl binary64)).run tangentOps).real.size ^ con.degree / 10 ^ 7 := by
  obtain ⟨c, h⟩ := tangentOps_reaches (A := binary64)
  set st := ((Store.empty (Fl binary64)).run tangentOps) with hst
  have hp0 : PointIs st.real 0 ⟨0, 0⟩ := (pointIs_iff (x := 0) (y := 0) rfl _).2 rfl
  have hp1 : PointIs st.real 1 ⟨3, 0⟩ := (pointIs_iff (x := 3) (y := 0) rfl _).2 rfl
  have hp2 : PointIs st.real 2 ⟨0, 4⟩ := (pointIs_iff (x := 0) (y := 4) rfl _).2 rfl
  have hl : LineIs st.real 3 ⟨0, 0⟩ ⟨3, 0⟩ := (lineIs_iff (p := 0) (q := 1) rfl rfl rfl _ _).2 ⟨rfl, rfl⟩
  have hc : CircleIs st.real 5 ⟨0, 4⟩ 4 := (circleIs_iff (p := 2) (q := 4) rfl rfl rfl _ _).2 ⟨rfl, rfl⟩
  have hsz : st.real.size = √(57 / 8) := by
    have : st.real.numbers = [0, 0, 3, 0, 0, 4, 4, 4] := rfl
    rw [Store.size, this]
    norm_num
  have hpos : 0 < st.real.size := by
    rw [hsz]
    positivity
  have hle : st.real.size / 100 ≤ 3 := by
    rw [hsz]
    have : √(57 / 8) ≤ 3 := by rw [Real.sqrt_le_left (by norm_num)]; norm_num
    linarith
  have d1 : dist (⟨0, 0⟩ : ℂ) ⟨3, 0⟩ = 3 := by
    rw [Complex.dist_eq, sub_mk, ← sqrt_sq_add, Real.sqrt_eq_iff_mul_self_eq (by norm_num) (by norm_num)]
    norm_num
  have d2 : dist (⟨0, 4⟩ : ℂ) ⟨0, 0⟩ = 4 := by
    rw [Complex.dist_eq, sub_mk, ← sqrt_sq_add, Real.sqrt_eq_iff_mul_self_eq (by norm_num) (by norm_num)]
    norm_num
  have hne : (⟨0, 0⟩ : ℂ) ≠ ⟨3, 0⟩ := by
    intro he
    rw [he, dist_self] at d1
    norm_num at d1
  have hn : ‖(⟨3, 0⟩ : ℂ) - ⟨0, 0⟩‖ = 3 := by rw [← Complex.dist_eq, dist_comm, d1]
  have hcross : crossC ((⟨3, 0⟩ : ℂ) - ⟨0, 0⟩) (⟨0, 4⟩ - ⟨0, 0⟩) = 12 := by
    rw [sub_mk, sub_mk]
    norm_num [crossC]
  have hrnd := binary64_accurate.rnd (Real.pi / 2)
  have hpi := Real.two_le_pi
  have hpi4 := Real.pi_le_four
  rw [abs_of_pos (show (0 : ℝ) < Real.pi / 2 by linarith)] at hrnd
  have hrnd' : |binary64.rnd (Real.pi / 2) - Real.pi / 2| ≤ 1 / 10 ^ 8 := hrnd.trans (by linarith)
  have hmem : ∀ con ∈ st.cons, con = .pointPointPointAngle 1 0 2 ⟨binary64.rnd (Real.pi / 2)⟩ ∨ con = .pointLineDistance 2 3 ⟨4⟩ ∨ con = .lineCircleTangency 3 5 := by
    intro con hcon
    have h2 : st.cons = [.pointPointPointAngle 1 0 2 ⟨binary64.rnd (Real.pi / 2)⟩, .pointLineDistance 2 3 ⟨4⟩, .lineCircleTangency 3 5] := rfl
    rw [h2] at hcon
    simpa using hcon
  refine ⟨c, h, binary64_accurate, hpos, rfl, fun con hcon => ?_, fun con hcon => ?_⟩
  · rcases hmem con hcon with rfl | rfl | rfl
    · refine ⟨?_, _, _, _, hp1, hp0, hp2, by rw [dist_comm, d1]; exact hle, by rw [d2]; linarith⟩
      show |binary64.rnd (Real.pi / 2)| ≤ _
      rw [abs_le] at hrnd' ⊢
      constructor <;> linarith
    · exact ⟨_, _, hl, by rw [d1]; exact hle⟩
    · exact ⟨_, _, hl, by rw [d1]; exact hle⟩
  · rcases hmem con hcon with rfl | rfl | rfl
    · refine ⟨Real.pi / 2 - binary64.rnd (Real.pi / 2), _, ⟨_, _, _, hp1, hp0, hp2, ?_, rfl⟩, ?_⟩
      · show TurnedBy (binary64.rnd (Real.pi / 2) + _) _ _
        rw [add_sub_cancel, TurnedBy, hn, ← Complex.dist_eq, d2, sub_mk, sub_mk, Complex.ofReal_div, show ((2 : ℝ) : ℂ) = 2 from Complex.ofReal_ofNat 2, Complex.exp_pi_div_two_mul_I]
        apply Complex.ext <;> norm_num [Complex.div_re, Complex.div_im, Complex.normSq]
      · rw [abs_sub_comm]
        exact hrnd'.trans (by norm_num [Con.degree])
    · refine ⟨0, _, ⟨_, _, _, hp2, hl, ?_, rfl⟩, by rw [abs_zero]; positivity⟩
      rw [← signedDistance_iff hne, hcross, hn]
      show (12 : ℝ) / 3 = 4 + 0
      norm_num
    · refine ⟨0, _, ⟨_, _, _, _, hl, hc, ?_, rfl⟩, by rw [abs_zero]; positivity⟩
      rw [infDist_line hne, hcross, hn]
      norm_num

end Fiksi
