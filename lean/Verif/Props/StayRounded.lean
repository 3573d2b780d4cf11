import Verif.Proofs.StayRounded
/-!
# A figure that satisfies its constraints stays in place, in rounded arithmetic (C72)
-/
namespace Fiksi

open Spec Spec.Geo

section
variable {A : Arith}

theorem elem_numbers (e : Elem (Fl A)) : e.real.numbers = (elemValues e).map Fl.val := by cases e <;> rfl

theorem elems_numbers (es : List (Elem (Fl A))) : (es.map Elem.real).flatMap Elem.numbers = (es.flatMap elemValues).map Fl.val := by
  induction es with
  | nil => rfl
  | cons e es ih => rw [List.map_cons, List.flatMap_cons, List.flatMap_cons, List.map_append, ih, elem_numbers]

theorem con_distance (es : List (Elem (Fl A))) (con : Spec.Con (Fl A)) : ((encCon es con).filterMap Expr.lengthParameter).map Fl.val = con.real.distance.toList := by cases con <;> rfl

theorem cons_distance (es : List (Elem (Fl A))) (cons : List (Spec.Con (Fl A))) :
    (cons.map Con.real).filterMap Con.distance = ((cons.flatMap (encCon es)).filterMap Expr.lengthParameter).map Fl.val := by
  induction cons with
  | nil => rfl
  | cons con cons ih =>
    rw [List.map_cons, List.filterMap_cons, List.flatMap_cons, List.filterMap_append, List.map_append, con_distance, ih]
    cases con.real.distance <;> rfl

theorem Rel.numbers {s : System (Fl A)} {st : Store (Fl A)} (hr : Rel s st) : (s.vars ++ s.expressions.filterMap Expr.lengthParameter).map Fl.val = st.real.numbers := by
  rw [List.map_append, hr.vars, hr.exprs, ← elems_numbers, ← cons_distance]
  rfl

theorem numbers_length (st : Store (Fl A)) : st.real.numbers.length ≤ 2 * st.elems.length + st.cons.length := by
  rw [Store.numbers, List.length_append]
  have h1 := List.length_filterMap_le Con.distance st.real.cons
  have h2 := flatMap_length_le st.elems
  have h3 : st.real.cons.length = st.cons.length := by simp [Store.real]
  have h4 : (st.real.elems.flatMap Elem.numbers).length = (st.elems.flatMap elemValues).length := by
    rw [show st.real.elems = st.elems.map Elem.real from rfl, elems_numbers, List.length_map]
  omega

/-- No number exceeds the size times the root of the number of numbers. -/
theorem number_le {st : Store ℝ} {x : ℝ} (hx : x ∈ st.numbers) : x ^ 2 ≤ st.numbers.length * st.size ^ 2 := by
  have hn : (0 : ℝ) < st.numbers.length := by exact_mod_cast List.length_pos_of_mem hx
  have h0 : ∀ y ∈ st.numbers.map (fun x => x ^ 2), 0 ≤ y := by
    intro y hy
    obtain ⟨z, -, rfl⟩ := List.mem_map.1 hy
    exact sq_nonneg z
  rw [Store.size, Real.sq_sqrt (div_nonneg (List.sum_nonneg h0) hn.le), mul_div_cancel₀ _ hn.ne']
  exact List.single_le_sum h0 _ (List.mem_map_of_mem hx)

section
variable {u : ℝ} (hA : A.Accurate u) (hu : u ≤ 1 / 2 ^ 53)
include hA hu

/-- The factor that `solve` computes. -/
theorem Rel.factor {s : System (Fl A)} {st : Store (Fl A)} (hr : Rel s st) (hn : st.real.numbers.length < 2 ^ 19) (hσ : 0 < st.real.size) :
    0 < s.scale.val ∧ 0 ≤ (1 / s.scale).val ∧ (1 / s.scale).val * st.real.size ≤ 101 / 100 := by
  have hu0 := hA.pos
  have hl : (s.vars ++ s.expressions.filterMap Expr.lengthParameter).length = st.real.numbers.length := by rw [← hr.numbers, List.length_map]
  have hne : s.vars ++ s.expressions.filterMap Expr.lengthParameter ≠ [] := by
    intro he
    have : st.real.numbers = [] := by rw [← hr.numbers, he]; rfl
    rw [Store.size, this] at hσ
    simp at hσ
  obtain ⟨h1, -⟩ := rootMeanSquares_bounds hA hu (by rw [hl]; omega) hne
  have hsize : √(((s.vars ++ s.expressions.filterMap Expr.lengthParameter).map (fun v => v.val * v.val)).sum / (s.vars ++ s.expressions.filterMap Expr.lengthParameter).length) = st.real.size := by
    rw [Store.size, ← hr.numbers, List.map_map, List.length_map]
    congr 4
    funext v
    exact (sq v.val).symm
  rw [hsize] at h1
  have hs : 0 < s.scale.val := lt_of_lt_of_le (mul_pos (by norm_num) hσ) h1
  have h2 := rnd_bounds hA (x := 1 / s.scale.val) (by positivity)
  have h3 : (1 / s.scale).val = A.rnd (1 / s.scale.val) := rfl
  rw [← h3] at h2
  refine ⟨hs, (mul_nonneg (by linarith [hA.small]) (by positivity)).trans h2.1, ?_⟩
  have h4 : (1 - 1 / 2 ^ 20) * st.real.size ≤ s.scale.val := h1
  have h5 : 1 / s.scale.val * st.real.size ≤ 1 + 1 / 2 ^ 19 := by
    rw [one_div, inv_mul_le_iff₀ hs]
    have := mul_le_mul_of_nonneg_right h4 (show (0 : ℝ) ≤ 1 + 1 / 2 ^ 19 by norm_num)
    refine le_trans ?_ this
    have h6 : st.real.size * 1 ≤ st.real.size * ((1 - 1 / 2 ^ 20) * (1 + 1 / 2 ^ 19)) := mul_le_mul_of_nonneg_left (by norm_num) hσ.le
    linarith
  have h6 := mul_le_mul_of_nonneg_right h2.2 hσ.le
  rw [mul_assoc] at h6
  have h7 : (1 + u) * (1 / s.scale.val * st.real.size) ≤ (1 + 1 / 2 ^ 53) * (1 + 1 / 2 ^ 19) :=
    mul_le_mul (by linarith) h5 (mul_nonneg (by positivity) hσ.le) (by norm_num)
  exact h6.trans (h7.trans (by norm_num))

omit hu in
/-- Dividing by the scale and multiplying again. -/
theorem scale_back (hu' : u ≤ 1 / 10) {s : Fl A} (hs : 0 < s.val) (x : Fl A) : |(s * (x * (1 / s))).val - x.val| ≤ 4 * u * |x.val| := by
  have hu0 := hA.pos
  have h1 := hA.rnd (1 / s.val)
  have h2 := hA.rnd (x.val * A.rnd (1 / s.val))
  have h3 := hA.rnd (s.val * A.rnd (x.val * A.rnd (1 / s.val)))
  show |A.rnd (s.val * A.rnd (x.val * A.rnd (1 / s.val))) - x.val| ≤ _
  set k := A.rnd (1 / s.val)
  set a := A.rnd (x.val * k)
  have e1 : |s.val * k - 1| ≤ u := by
    have : s.val * k - 1 = s.val * (k - 1 / s.val) := by rw [mul_sub, mul_one_div_cancel hs.ne']
    rw [this, abs_mul, abs_of_pos hs]
    calc s.val * |k - 1 / s.val| ≤ s.val * (u * |1 / s.val|) := mul_le_mul_of_nonneg_left h1 hs.le
      _ = u := by rw [abs_of_pos (by positivity)]; field_simp
  have e2 : |s.val * a - s.val * (x.val * k)| ≤ u * |s.val * (x.val * k)| := by
    rw [← mul_sub, abs_mul, abs_mul s.val]
    calc |s.val| * |a - x.val * k| ≤ |s.val| * (u * |x.val * k|) := mul_le_mul_of_nonneg_left h2 (abs_nonneg _)
      _ = _ := by ring
  have e3 : |s.val * (x.val * k) - x.val| ≤ u * |x.val| := by
    rw [show s.val * (x.val * k) - x.val = (s.val * k - 1) * x.val by ring, abs_mul]
    exact mul_le_mul_of_nonneg_right e1 (abs_nonneg _)
  have hx := abs_nonneg x.val
  have f1 : |s.val * (x.val * k)| ≤ (1 + u) * |x.val| := by
    have := abs_sub_abs_le_abs_sub (s.val * (x.val * k)) x.val
    linarith
  have f2 : |s.val * a - x.val| ≤ (2 * u + u * u) * |x.val| := by
    have := abs_sub_le (s.val * a) (s.val * (x.val * k)) x.val
    have := mul_le_mul_of_nonneg_left f1 hu0
    linarith
  have f3 : |s.val * a| ≤ (1 + (2 * u + u * u)) * |x.val| := by
    have := abs_sub_abs_le_abs_sub (s.val * a) x.val
    linarith
  have f4 := abs_sub_le (A.rnd (s.val * a)) (s.val * a) x.val
  have f5 := mul_le_mul_of_nonneg_left f3 hu0
  have f6 : u * ((1 + (2 * u + u * u)) * |x.val|) + (2 * u + u * u) * |x.val| ≤ 4 * u * |x.val| := by
    have : u * (1 + (2 * u + u * u)) + (2 * u + u * u) ≤ 4 * u := by nlinarith [mul_nonneg hu0 hu0]
    nlinarith
  linarith

end

theorem near_of_values {ε : ℝ} {es es' : List (Elem (Fl A))} (hs : List.Forall₂ SameShape es es')
    (h : List.Forall₂ (fun x x' : Fl A => |x'.val - x.val| ≤ ε * |x.val|) (es.flatMap elemValues) (es'.flatMap elemValues)) : List.Forall₂ (Elem.Near ε) es es' := by
  induction hs with
  | nil => exact .nil
  | @cons e e' es es' h1 _ ih =>
    cases e <;> cases e' <;> simp only [SameShape] at h1 <;> simp only [List.flatMap_cons, elemValues, List.cons_append, List.nil_append, List.forall₂_cons] at h
    · exact .cons h.1 (ih h.2)
    · exact .cons ⟨h.1, h.2.1⟩ (ih h.2.2)
    · exact .cons ⟨h1.1.symm, h1.2.symm⟩ (ih h)
    · exact .cons ⟨h1.1.symm, h1.2.symm⟩ (ih h)

end

section
variable {A : Arith} {u : ℝ} (hA : A.Accurate u) (hu : u ≤ 1 / 2 ^ 53)
include hA hu

/-- Numbers of the figure in units of its size, for at most `n` numbers. -/
theorem Rel.bounded {s : System (Fl A)} {st : Store (Fl A)} (hr : Rel s st) {n : Nat} (hn : st.real.numbers.length ≤ n) (hn' : n < 2 ^ 19) (hσ : 0 < st.real.size) {B : ℝ} (hB : 0 ≤ B)
    (hnB : n * (101 / 100) ^ 2 ≤ B ^ 2) : ∀ x ∈ s.vars ++ s.expressions.filterMap Expr.lengthParameter, |(1 / s.scale).val * x.val| ≤ B := by
  obtain ⟨hs, hk, hkσ⟩ := hr.factor hA hu (by omega) hσ
  intro x hx
  have hx' : x.val ∈ st.real.numbers := by
    rw [← hr.numbers]
    exact List.mem_map_of_mem hx
  have h1 := number_le hx'
  have h2 : (st.real.numbers.length : ℝ) ≤ n := by exact_mod_cast hn
  rw [← sq_le_sq₀ (abs_nonneg _) hB, sq_abs, mul_pow]
  have h3 := mul_le_mul_of_nonneg_left (h1.trans (mul_le_mul_of_nonneg_right h2 (sq_nonneg _))) (sq_nonneg (1 / s.scale).val)
  refine h3.trans (le_trans ?_ hnB)
  have h4 := pow_le_pow_left₀ (mul_nonneg hk hσ.le) hkσ 2
  rw [mul_pow] at h4
  have h5 := mul_le_mul_of_nonneg_left h4 (Nat.cast_nonneg (α := ℝ) n)
  linarith

omit hA hu in
theorem Rel.counts {s : System (Fl A)} {st : Store (Fl A)} (hr : Rel s st) : s.expressions.length ≤ 2 * st.cons.length := by
  have : ∀ l : List (Spec.Con (Fl A)), (l.flatMap (encCon st.elems)).length ≤ 2 * l.length := by
    intro l
    induction l with
    | nil => simp
    | cons con l ih =>
      rw [List.flatMap_cons, List.length_append, List.length_cons]
      have : (encCon st.elems con).length ≤ 2 := by cases con <;> simp [encCon]
      omega
  have h1 := this st.cons
  rwa [← hr.exprs] at h1

/-- Where the residuals of the scaled figure are small, `solve` leaves it in place. -/
theorem Reaches.stays_of_small (cast : Fl A → Int) {sort : SortByKey} (hsort : Sorts sort) {counter : Nat} {ops : List (Op (Fl A))}
    {c : Client (Fl A)} (h : Reaches counter ops c) (hshort : ops.length < 2 ^ 17) (hσ : 0 < ((Store.empty (Fl A)).run ops).real.size) {B : ℝ}
    (hB : (2 * ops.length : ℕ) * B ^ 2 ≤ 65 / 10 ^ 10)
    (hsmall : ∀ e ∈ c.sys.scaledExpressions, ∀ r, e.calculateResidual (identityMap c.sys.scaledVariables) = .ok r → |r.val| ≤ B)
    {fuel : Nat} {ord : HashOrder} (hord : ord.Ok) {opts : SolvingOptions} (hd : opts.decomposer ≠ .recursiveAssembly) (hp : opts.perturb = false) :
    ∃ s' result, c.sys.solve (crateOptimize (qrLeastSquares sort (colamdOfStructure cast) : LeastSquares (Fl A)) fuel) ord opts = .ok s' ∧
      Reaches counter (ops ++ [.solve result]) { c with sys := s' } ∧ List.Forall₂ (Elem.Near (4 * u)) ((Store.empty (Fl A)).run ops).elems result := by
  set st := (Store.empty (Fl A)).run ops with hst
  have hr : Rel c.sys st := h.crel.rel
  obtain ⟨n1, n2⟩ := run_size (Store.empty (Fl A)) ops h.legal
  have n3 := numbers_length st
  have n4 := hr.counts
  simp only [Store.empty, List.length_nil, Nat.zero_add] at n1 n2
  have n1' : st.elems.length ≤ ops.length := n1
  have n2' : st.cons.length ≤ ops.length := n2
  obtain ⟨hs, hk, hkσ⟩ := hr.factor hA hu (by omega) hσ
  obtain ⟨V', h1, h2, h3⟩ := h.crate_stays cast hsort (by omega) (Small := fun y => |y.val| ≤ B) hsmall
    (fun r hr' hy => (small_stops hA hu (n := 2 * ops.length) (by omega) hB (by omega) hy).1) (fun r hr' hy => (small_stops hA hu (n := 2 * ops.length) (by omega) hB (by omega) hy).2) (fuel := fuel) hord hd hp
  obtain ⟨result, h4⟩ := C25_solve_is_a_call h (by omega) hord h1
  refine ⟨_, result, h1, h4, ?_⟩
  have hst' : (Store.empty (Fl A)).run (ops ++ [.solve result]) = { st with elems := result } := by
    rw [Store.run, List.foldl_append]
    rfl
  have h5 := h4.crel.rel.vars
  rw [hst'] at h5
  simp only at h5
  have h6 : List.Forall₂ SameShape st.elems result := ((legalRun_append _ _ _).1 h4.legal).2.1
  refine near_of_values h6 ?_
  rw [← h5, ← hr.vars, List.forall₂_iff_get]
  refine ⟨h2.symm, fun i hi hi' => ?_⟩
  have h7 := h3 i (c.sys.vars[i]) (List.getElem?_eq_getElem hi)
  simp only [List.get_eq_getElem]
  rw [List.getElem?_eq_getElem hi', Option.some.injEq, Option.some.injEq] at h7
  rcases h7 with h7 | h7
  · rw [h7, sub_self, abs_zero]
    have := hA.pos
    positivity
  · rw [h7]
    exact scale_back hA (hu.trans (by norm_num)) hs _

end

/-- C72: a figure that satisfies its constraints up to a ten-millionth of its size stays in place, up to rounding. In any arithmetic with a relative error of at most `u ≤ 2⁻⁵³`, after any legal
history of fewer than `2¹⁷` calls that leaves only coincidences, distances of points, incidences, equal segments, parallel and perpendicular lines, `solve` without perturbation, by either optimiser
and with either of the decomposers `None` and `SinglePass`, returns. Every coordinate and length has changed by at most `4·u` of itself. (The full claim is that nothing moves at all:
`C72_stays_exactly_fails`. Angles, distances from lines and tangencies: `C72_any_stays_partial`. The decomposer `RecursiveAssembly`: `C72_assembly_stays_partial`.) -/
theorem C72_stays_partial {A : Arith} {u : ℝ} (hA : A.Accurate u) (hu : u ≤ 1 / 2 ^ 53) (cast : Fl A → Int) {sort : SortByKey} (hsort : Sorts sort) {counter : Nat} {ops : List (Op (Fl A))}
    {c : Client (Fl A)} (h : Reaches counter ops c) (hshort : ops.length < 2 ^ 17) (hσ : 0 < ((Store.empty (Fl A)).run ops).real.size)
    (hdev : ∀ con ∈ ((Store.empty (Fl A)).run ops).cons, ∃ n x t, con.dimension = some n ∧ Deviation ((Store.empty (Fl A)).run ops).real con.real x t ∧
      |x| ≤ ((Store.empty (Fl A)).run ops).real.size ^ n / 10 ^ 7)
    {fuel : Nat} {ord : HashOrder} (hord : ord.Ok) {opts : SolvingOptions} (hd : opts.decomposer ≠ .recursiveAssembly) (hp : opts.perturb = false) :
    ∃ s' result, c.sys.solve (crateOptimize (qrLeastSquares sort (colamdOfStructure cast) : LeastSquares (Fl A)) fuel) ord opts = .ok s' ∧
      Reaches counter (ops ++ [.solve result]) { c with sys := s' } ∧ List.Forall₂ (Elem.Near (4 * u)) ((Store.empty (Fl A)).run ops).elems result := by
  set st := (Store.empty (Fl A)).run ops with hst
  have hr : Rel c.sys st := h.crel.rel
  obtain ⟨n1, n2⟩ := run_size (Store.empty (Fl A)) ops h.legal
  have n3 := numbers_length st
  simp only [Store.empty, List.length_nil, Nat.zero_add] at n1 n2
  have n1' : st.elems.length ≤ ops.length := n1
  have n2' : st.cons.length ≤ ops.length := n2
  obtain ⟨hs, hk, hkσ⟩ := hr.factor hA hu (by omega) hσ
  have hmem := hr.bounded hA hu (n := 2 ^ 19 - 1) (by omega) (by norm_num) hσ (B := 732) (by norm_num) (by norm_num)
  refine h.stays_of_small hA hu cast hsort hshort hσ (B := 11 / 10 ^ 8) ?_ ?_ hord hd hp
  · have : ((2 * ops.length : ℕ) : ℝ) ≤ 2 ^ 18 := by exact_mod_cast (by omega : 2 * ops.length ≤ 2 ^ 18)
    refine (mul_le_mul_of_nonneg_right this (by positivity)).trans (by norm_num)
  · exact hr.scaled_small (fun con hcon => hr.scaled_con hA hu hk (fun x hx => hmem x (List.mem_append_left _ hx))
      (fun e he d hd => hmem d (List.mem_append_right _ (List.mem_filterMap.2 ⟨e, he, hd⟩))) hσ.le hkσ hcon (hdev con hcon))

/-- A constraint that holds is missed by nothing. -/
theorem holds_deviation {con : Spec.Con ℝ} {st : Store ℝ} {n : Nat} (hn : con.dimension = some n) (h : Holds st con) : ∃ t, Deviation st con 0 t := by
  have hreal : ∀ (t : ℝ) (v : ℂ), (starRingEnd ℂ v * (t * v)).im = 0 := by
    intro t v
    rw [Complex.mul_im, Complex.mul_re, Complex.mul_im]
    simp
    ring
  have hreal' : ∀ (t : ℝ) (v : ℂ), (starRingEnd ℂ (t * v) * v).im = 0 := by
    intro t v
    rw [Complex.mul_im]
    simp
    ring
  cases con <;> simp only [Con.dimension, reduceCtorEq] at hn <;> simp only [Holds] at h
  · obtain ⟨P, Q, h1, h2, rfl⟩ := h
    exact ⟨_, P, P, h1, h2, (dist_self P).symm, rfl⟩
  · obtain ⟨P, Q, h1, h2, rfl⟩ := h
    exact ⟨_, P, Q, h1, h2, (sub_self _).symm, rfl⟩
  · obtain ⟨P, A, B, h1, h2, t, rfl⟩ := h
    exact ⟨_, _, A, B, h1, h2, by rw [add_sub_cancel_left, hreal], rfl⟩
  · obtain ⟨P, C, r, h1, h2, rfl⟩ := h
    exact ⟨_, P, C, _, h1, h2, (sub_self _).symm, rfl⟩
  · obtain ⟨A, B, C, D, h1, h2, h3, h4, h5⟩ := h
    exact ⟨_, A, B, C, D, h1, h2, h3, h4, by rw [h5, sub_self], rfl⟩
  · obtain ⟨A, B, C, D, h1, h2, t, h3⟩ := h
    exact ⟨_, A, B, C, D, h1, h2, by rw [h3, hreal'], rfl⟩
  · obtain ⟨A, B, C, D, h1, h2, h3⟩ := h
    refine ⟨_, A, B, C, D, h1, h2, ?_, rfl⟩
    rw [← dotC_eq, dotC]
    rw [Perpendicular] at h3
    linarith

theorem dimension_real {A : Arith} (con : Spec.Con (Fl A)) : con.real.dimension = con.dimension := by cases con <;> rfl

/-- C72 for a figure whose constraints hold exactly (`Spec.Geo.Holds`, for the numbers as stored). -/
theorem C72_satisfied_stays_partial {A : Arith} {u : ℝ} (hA : A.Accurate u) (hu : u ≤ 1 / 2 ^ 53) (cast : Fl A → Int) {sort : SortByKey} (hsort : Sorts sort) {counter : Nat} {ops : List (Op (Fl A))}
    {c : Client (Fl A)} (h : Reaches counter ops c) (hshort : ops.length < 2 ^ 17) (hσ : 0 < ((Store.empty (Fl A)).run ops).real.size)
    (hcons : ∀ con ∈ ((Store.empty (Fl A)).run ops).cons, con.dimension ≠ none ∧ Holds ((Store.empty (Fl A)).run ops).real con.real)
    {fuel : Nat} {ord : HashOrder} (hord : ord.Ok) {opts : SolvingOptions} (hd : opts.decomposer ≠ .recursiveAssembly) (hp : opts.perturb = false) :
    ∃ s' result, c.sys.solve (crateOptimize (qrLeastSquares sort (colamdOfStructure cast) : LeastSquares (Fl A)) fuel) ord opts = .ok s' ∧
      Reaches counter (ops ++ [.solve result]) { c with sys := s' } ∧ List.Forall₂ (Elem.Near (4 * u)) ((Store.empty (Fl A)).run ops).elems result := by
  refine C72_stays_partial hA hu cast hsort h hshort hσ (fun con hcon => ?_) hord hd hp
  obtain ⟨h1, h2⟩ := hcons con hcon
  obtain ⟨n, hn⟩ := Option.ne_none_iff_exists'.1 h1
  obtain ⟨t, ht⟩ := holds_deviation (by rw [dimension_real]; exact hn) h2
  exact ⟨n, 0, t, hn, ht, by rw [abs_zero]; positivity⟩

/-! ## A figure of each kind -/

/-- A right triangle with sides 3, 4 and 5, two of them lines at right angles. -/
noncomputable def triangleOps {A : Arith} : List (Op (Fl A)) :=
  [.createPoint ⟨0⟩ ⟨0⟩, .createPoint ⟨3⟩ ⟨0⟩, .createPoint ⟨0⟩ ⟨4⟩, .createLine 0 1, .createLine 0 2, .createCon (.pointPointDistance 1 2 ⟨5⟩), .createCon (.lineLinePerpendicularity 3 4)]

theorem triangleOps_reaches {A : Arith} : ∃ c, Reaches 0 (triangleOps (A := A)) c :=
  exists_reaches 0 triangleOps (by simp [triangleOps, Store.LegalRun, Store.Legal, Store.empty, Store.step, Store.IsPoint, Store.IsLine, Store.ConOk]) (by simp [triangleOps])

/-- The hypotheses of `C72_satisfied_stays_partial` are met in binary64. -/
example : ∃ c, Reaches 0 (triangleOps (A := binary64)) c ∧ binary64.Accurate (1 / 2 ^ 53) ∧ 0 < ((Store.empty (Fl binary64)).run triangleOps).real.size ∧
    ((Store.empty (Fl binary64)).run triangleOps).cons.length = 2 ∧
    ∀ con ∈ ((Store.empty (Fl binary64)).run triangleOps).cons, con.dimension ≠ none ∧ Holds ((Store.empty (Fl binary64)).run triangleOps).real con.real := by
  obtain ⟨c, h⟩ := triangleOps_reaches (A := binary64)
  have hp1 : PointIs ((Store.empty (Fl binary64)).run triangleOps).real 1 ⟨3, 0⟩ := (pointIs_iff (x := 3) (y := 0) rfl _).2 rfl
  have hp2 : PointIs ((Store.empty (Fl binary64)).run triangleOps).real 2 ⟨0, 4⟩ := (pointIs_iff (x := 0) (y := 4) rfl _).2 rfl
  have hl1 : LineIs ((Store.empty (Fl binary64)).run triangleOps).real 3 ⟨0, 0⟩ ⟨3, 0⟩ := (lineIs_iff (p := 0) (q := 1) rfl rfl rfl _ _).2 ⟨rfl, rfl⟩
  have hl2 : LineIs ((Store.empty (Fl binary64)).run triangleOps).real 4 ⟨0, 0⟩ ⟨0, 4⟩ := (lineIs_iff (p := 0) (q := 2) rfl rfl rfl _ _).2 ⟨rfl, rfl⟩
  refine ⟨c, h, binary64_accurate, ?_, rfl, fun con hcon => ?_⟩
  · have : ((Store.empty (Fl binary64)).run triangleOps).real.numbers = [0, 0, 3, 0, 0, 4, 5] := rfl
    rw [Store.size, this]
    norm_num
  · have : con = .pointPointDistance 1 2 ⟨5⟩ ∨ con = .lineLinePerpendicularity 3 4 := by
      have h2 : ((Store.empty (Fl binary64)).run triangleOps).cons = [.pointPointDistance 1 2 ⟨5⟩, .lineLinePerpendicularity 3 4] := rfl
      rw [h2] at hcon
      simpa using hcon
    rcases this with rfl | rfl
    · refine ⟨by simp [Con.dimension], _, _, hp1, hp2, ?_⟩
      rw [Complex.dist_eq, sub_mk, ← sqrt_sq_add, Real.sqrt_eq_iff_mul_self_eq (by norm_num) (by norm_num)]
      norm_num
    · exact ⟨by simp [Con.dimension], _, _, _, _, hl1, hl2, by norm_num [Perpendicular]⟩

/-! ## The full claim fails -/

section
variable {F : Type} [Add F] [Sub F] [Mul F] [Div F] [Neg F] [Zero F] [One F] [FloatOps F]

/-- Two points in the same place that shall coincide. -/
def samePairOps (a b : F) : List (Op F) := [.createPoint a b, .createPoint a b, .createCon (.pointPointCoincidence 0 1)]

theorem samePairOps_reaches (a b : F) : ∃ c, Reaches 0 (samePairOps a b) c :=
  exists_reaches 0 _ (by simp [samePairOps, Store.LegalRun, Store.Legal, Store.empty, Store.step, Store.IsPoint, Store.ConOk]) (by simp [samePairOps])

set_option maxRecDepth 10000 in
theorem samePair_sys {a b : F} {c : Client F} (h : Reaches 0 (samePairOps a b) c) : c.sys.graph.components = [⟨{1, 0}, {0}⟩] ∧ c.sys.elements = [.point 0, .point 2] ∧
    c.sys.vars = [a, b, a, b] ∧ c.sys.fixedVariables = ∅ ∧ c.sys.expressions = [.variableVariableEquality 0 2, .variableVariableEquality 1 3] ∧
    c.sys.constraints = [⟨.pointPointCoincidence, 0⟩] := by
  have key : (do let c ← (Client.new F 0).run (samePairOps a b)
                 pure (c.sys.graph.components, c.sys.elements, c.sys.vars, c.sys.fixedVariables, c.sys.expressions, c.sys.constraints) : R _) =
    .ok ([⟨{1, 0}, {0}⟩], [.point 0, .point 2], [a, b, a, b], ∅, [.variableVariableEquality 0 2, .variableVariableEquality 1 3], [⟨.pointPointCoincidence, 0⟩]) := rfl
  rw [h.run, ok_bind] at key
  simpa [pure_eq_ok] using key

/-- If the optimiser returns its start, all four values go to the scaled problem and back. -/
theorem samePair_solve {a b : F} {c : Client F} (h : Reaches 0 (samePairOps a b) c) {opt : Optimize F} {ord : HashOrder} {opts : SolvingOptions} (hd : opts.decomposer = .none)
    (hp : opts.perturb = false) {s' : System F} (hs : c.sys.solve opt ord opts = .ok s')
    (hopt : opt opts.optimizer (⟨c.sys.scaledVariables, c.sys.scaledExpressions, [0, 1], [0, 1, 2, 3]⟩ : Subsystem F).problem c.sys.scaledVariables = .ok c.sys.scaledVariables) :
    s'.vars = [c.sys.scale * (a * (1 / c.sys.scale)), c.sys.scale * (b * (1 / c.sys.scale)), c.sys.scale * (a * (1 / c.sys.scale)), c.sys.scale * (b * (1 / c.sys.scale))] := by
  obtain ⟨h1, h2, h3, h4, h5, h6⟩ := samePair_sys h
  have hfree : c.sys.freeVariables {1, 0} = .ok {0, 1, 2, 3} := by
    unfold System.freeVariables
    rw [show ascending {1, 0} = [0, 1] by decide +kernel, h2, h4]
    have : (({0, 1, 2, 3} : Finset Nat)) = ∅ ∪ ((EncodedElement.point 0).variableIndices.toFinset \ ∅) ∪ ((EncodedElement.point 2).variableIndices.toFinset \ ∅) := by decide
    rw [this]
    rfl
  have hasc : ascending {0, 1, 2, 3} = [0, 1, 2, 3] := by decide +kernel
  have hcons : (ascending {0}).mapM c.sys.constraintExpressions = .ok [[0, 1]] := by
    rw [show ascending {0} = [0] by decide +kernel, List.mapM_cons]
    unfold System.constraintExpressions
    rw [h6]
    rfl
  have hv : c.sys.scaledVariables = [a * (1 / c.sys.scale), b * (1 / c.sys.scale), a * (1 / c.sys.scale), b * (1 / c.sys.scale)] := by
    unfold System.scaledVariables
    rw [h3]
    rfl
  rw [System.solve, System.solveLoop, h1, h3] at hs
  simp only [List.zipIdx_cons, List.zipIdx_nil, List.foldlM_cons, List.foldlM_nil, solveComponent] at hs
  rw [if_neg (by simp), hfree, ok_bind, perturbFree, if_neg (by simp [hp])] at hs
  simp only [hd, pure_eq_ok, ok_bind] at hs
  rw [solveWhole, hasc] at hs
  have hval : [0, 1, 2, 3].mapM (idx c.sys.scaledVariables) = .ok c.sys.scaledVariables := by rw [hv]; rfl
  simp only [hval, hcons, ok_bind] at hs
  rw [bind_eq_ok] at hs
  obtain ⟨st, h7, h8⟩ := hs
  rw [bind_eq_ok] at h7
  obtain ⟨st2, h7, h9⟩ := h7
  rw [bind_eq_ok] at h7
  obtain ⟨y, h10, h11⟩ := h7
  rw [show [[0, 1]].flatten = [0, 1] from rfl, hopt] at h10
  cases h10
  rw [hv] at h11
  cases h11
  cases h9
  cases h8
  rfl

end

/-- A representable number of at least `2⁵²·2ᵉ` is a multiple of `2ᵉ`. -/
theorem multiple_of_large {x : ℝ} {e : ℤ} (h : Representable x) (h1 : 2 ^ 52 * 2 ^ e ≤ x) : ∃ n : ℤ, x = n * 2 ^ e := by
  obtain ⟨m, f, hm, rfl⟩ := h
  have hm' : (m : ℝ) < 2 ^ 53 := by exact_mod_cast (abs_lt.1 hm).2
  have h2 : (2 : ℝ) ^ (e - 1) < 2 ^ f := by
    have : (m : ℝ) * 2 ^ f < 2 ^ 53 * 2 ^ f := mul_lt_mul_of_pos_right hm' (by positivity)
    rw [zpow_sub_one₀ (by norm_num)]
    linarith
  have h3 := (zpow_lt_zpow_iff_right₀ (by norm_num)).1 h2
  obtain ⟨k, hk⟩ := Int.eq_ofNat_of_zero_le (by omega : 0 ≤ f - e)
  refine ⟨m * 2 ^ k, ?_⟩
  obtain rfl : f = k + e := by omega
  rw [zpow_add₀ (by norm_num)]
  push_cast
  rw [zpow_natCast]
  ring

/-- The nearest number, if it is nearer than half a unit in the last place. -/
theorem rnd_unique {A : Arith} (hA : A.Binary64) {x : ℝ} {m : ℤ} {e : ℤ} (h1 : 2 ^ 52 < m) (h2 : m < 2 ^ 53) (h3 : |(m : ℝ) * 2 ^ e - x| < 2 ^ e / 2) : A.rnd x = m * 2 ^ e := by
  have hp : (0 : ℝ) < 2 ^ e := by positivity
  obtain ⟨hr, hn⟩ := hA x
  have h4 := hn (m * 2 ^ e) ⟨m, e, by rw [abs_of_pos (by omega)]; exact h2, rfl⟩
  have h5 : |A.rnd x - m * 2 ^ e| < 2 ^ e := by
    have := abs_sub_le (A.rnd x) x (m * 2 ^ e)
    rw [abs_sub_comm x] at this
    linarith
  have h6 := abs_lt.1 h5
  have h7 : ((2 : ℝ) ^ 52 + 1) * 2 ^ e ≤ m * 2 ^ e := by
    refine mul_le_mul_of_nonneg_right ?_ hp.le
    exact_mod_cast h1
  obtain ⟨n, hn'⟩ := multiple_of_large (e := e) hr (by linarith [h6.1])
  rw [hn'] at h5 ⊢
  rw [← sub_mul, abs_mul, abs_of_pos hp] at h5
  have h8 : |(n : ℝ) - m| < 1 := by
    by_contra hc
    push Not at hc
    nlinarith
  have h9 : |n - m| < 1 := by exact_mod_cast h8
  rw [Int.abs_lt_one_iff] at h9
  rw [show n = m by omega]

theorem rnd_fifth {A : Arith} (hA : A.Binary64) : A.rnd (1 / 5) = 7205759403792794 / 2 ^ 55 := by
  rw [rnd_unique hA (m := 7205759403792794) (e := -55) (by norm_num) (by norm_num) (by rw [zpow_neg, abs_lt]; constructor <;> norm_num)]
  norm_num [zpow_neg]

theorem rnd_seven_fifths {A : Arith} (hA : A.Binary64) : A.rnd (7 * (7205759403792794 / 2 ^ 55)) = 6305039478318695 / 2 ^ 52 := by
  rw [rnd_unique hA (m := 6305039478318695) (e := -52) (by norm_num) (by norm_num) (by rw [zpow_neg, abs_lt]; constructor <;> norm_num)]
  norm_num [zpow_neg]

theorem rnd_seven {A : Arith} (hA : A.Binary64) : A.rnd (5 * (6305039478318695 / 2 ^ 52)) = 7 + 1 / 2 ^ 50 := by
  rw [rnd_unique hA (m := 7881299347898369) (e := -50) (by norm_num) (by norm_num) (by rw [zpow_neg, abs_lt]; constructor <;> norm_num)]
  norm_num [zpow_neg]

theorem representable_int {n : ℤ} (h : |n| < 2 ^ 53) : Representable n := ⟨n, 0, h, by simp⟩

theorem rnd_one {A : Arith} (hA : A.Binary64) : A.rnd (5 * (7205759403792794 / 2 ^ 55)) = 1 := by
  obtain ⟨h1, h2⟩ := hA (5 * (7205759403792794 / 2 ^ 55))
  have h3 := h2 1 (by exact_mod_cast representable_int (n := 1) (by norm_num))
  have h4 := abs_le.1 (h3.trans_eq (b := |(1 : ℝ) - 5 * (7205759403792794 / 2 ^ 55)|) (c := 1 / 2 ^ 54) (by rw [abs_of_nonpos (by norm_num)]; norm_num))
  obtain ⟨n, hn⟩ := multiple_of_large (e := -52) h1 (by rw [zpow_neg]; norm_num at h4 ⊢; linarith [h4.1])
  rw [hn] at h4 ⊢
  have h5 : (n : ℝ) < 2 ^ 52 + 1 := by
    norm_num [zpow_neg] at h4 ⊢
    linarith [h4.2]
  have h6 : (2 : ℝ) ^ 52 - 1 < n := by
    norm_num [zpow_neg] at h4 ⊢
    linarith [h4.1]
  have h7 : n < 2 ^ 52 + 1 := by exact_mod_cast h5
  have h8 : 2 ^ 52 - 1 < n := by exact_mod_cast h6
  rw [show n = 2 ^ 52 by omega]
  norm_num [zpow_neg]

/-- The scale of that pair. -/
theorem samePair_scale {A : Arith} (hA : A.Binary64) {c : Client (Fl A)} (h : Reaches 0 (samePairOps ⟨1⟩ ⟨7⟩) c) : c.sys.scale = ⟨5⟩ := by
  obtain ⟨-, -, h3, -, h5, -⟩ := samePair_sys h
  have hx : ∀ n : ℤ, |n| < 2 ^ 53 → A.rnd n = n := fun n hn => binary64_exact hA (representable_int hn)
  rw [System.scale, h3, h5]
  show rootMeanSquares [(⟨1⟩ : Fl A), ⟨7⟩, ⟨1⟩, ⟨7⟩] = ⟨5⟩
  show (⟨A.rnd √(A.rnd (A.rnd (A.rnd (A.rnd (A.rnd (0 + A.rnd (1 * 1)) + A.rnd (7 * 7)) + A.rnd (1 * 1)) + A.rnd (7 * 7)) / A.rnd ((4 : ℕ) : ℝ)))⟩ : Fl A) = ⟨5⟩
  have e1 := hx 1 (by norm_num)
  have e49 := hx 49 (by norm_num)
  have e50 := hx 50 (by norm_num)
  have e51 := hx 51 (by norm_num)
  have e100 := hx 100 (by norm_num)
  have e4 := hx 4 (by norm_num)
  have e25 := hx 25 (by norm_num)
  have e5 := hx 5 (by norm_num)
  push_cast at e1 e49 e50 e51 e100 e4 e25 e5
  have s25 : √(25 : ℝ) = 5 := by rw [Real.sqrt_eq_iff_mul_self_eq (by norm_num) (by norm_num)]; norm_num
  norm_num [e1, e49, e50, e51, e100, e4, e25, e5, s25]

/-- C72 fails in full: in binary64, a figure that satisfies its constraints exactly is moved. Two points that shall coincide are both at `(1, 7)`; a solve without perturbation leaves them at
`(1, 7 + 2⁻⁵⁰)`: the values are divided by the scale 5 and multiplied by it again. -/
theorem C72_stays_exactly_fails {A : Arith} (hA : A.Binary64) (hatan2 : ∀ x y, |A.atan2 y x - Complex.arg ⟨x, y⟩| ≤ 2 * (1 / 2 ^ 53) * |Complex.arg ⟨x, y⟩|) (cast : Fl A → Int) {sort : SortByKey}
    (hsort : Sorts sort) {fuel : Nat} {ord : HashOrder} (hord : ord.Ok) :
    ∃ c, Reaches 0 (samePairOps (⟨1⟩ : Fl A) ⟨7⟩) c ∧ (∀ con ∈ ((Store.empty (Fl A)).run (samePairOps ⟨1⟩ ⟨7⟩)).cons, Holds ((Store.empty (Fl A)).run (samePairOps ⟨1⟩ ⟨7⟩)).real con.real) ∧
      ∃ s', c.sys.solve (crateOptimize (qrLeastSquares sort (colamdOfStructure cast) : LeastSquares (Fl A)) fuel) ord ⟨.levenbergMarquardt, .none, false⟩ = .ok s' ∧
        c.sys.getValue .point ⟨c.sys.id, 0⟩ = .ok (.point ⟨1⟩ ⟨7⟩) ∧ s'.getValue .point ⟨c.sys.id, 0⟩ = .ok (.point ⟨1⟩ ⟨7 + 1 / 2 ^ 50⟩) := by
  have hA' : A.Accurate (1 / 2 ^ 53) := ⟨by positivity, by norm_num, binary64_error hA, hatan2⟩
  obtain ⟨c, h⟩ := samePairOps_reaches (⟨1⟩ : Fl A) ⟨7⟩
  obtain ⟨h1, h2, h3, h4, h5, h6⟩ := samePair_sys h
  have hp : ∀ i, i = 0 ∨ i = 1 → PointIs ((Store.empty (Fl A)).run (samePairOps ⟨1⟩ ⟨7⟩)).real i ⟨1, 7⟩ := by
    rintro i (rfl | rfl)
    · exact (pointIs_iff (x := 1) (y := 7) rfl _).2 rfl
    · exact (pointIs_iff (x := 1) (y := 7) rfl _).2 rfl
  have hcons : ((Store.empty (Fl A)).run (samePairOps ⟨1⟩ ⟨7⟩)).cons = [.pointPointCoincidence 0 1] := rfl
  have hh : ∀ con ∈ ((Store.empty (Fl A)).run (samePairOps ⟨1⟩ ⟨7⟩)).cons, Holds ((Store.empty (Fl A)).run (samePairOps ⟨1⟩ ⟨7⟩)).real con.real := by
    intro con hcon
    rw [hcons, List.mem_singleton] at hcon
    subst hcon
    exact ⟨_, _, hp 0 (.inl rfl), hp 1 (.inr rfl), rfl⟩
  have hsize : 0 < ((Store.empty (Fl A)).run (samePairOps ⟨1⟩ ⟨7⟩)).real.size := by
    have : ((Store.empty (Fl A)).run (samePairOps ⟨1⟩ ⟨7⟩)).real.numbers = [1, 7, 1, 7] := rfl
    rw [Store.size, this]
    norm_num
  obtain ⟨s', result, hs, -, -⟩ := C72_satisfied_stays_partial hA' le_rfl cast hsort h (by simp [samePairOps]) hsize
    (fun con hcon => ⟨by rw [hcons, List.mem_singleton] at hcon; subst hcon; simp [Con.dimension], hh con hcon⟩) (fuel := fuel) hord (opts := ⟨.levenbergMarquardt, .none, false⟩) (by simp) rfl
  have hk := samePair_scale hA h
  have hv := samePair_solve h rfl rfl hs ?_
  · refine ⟨c, h, hh, s', hs, ?_, ?_⟩
    · rw [System.getValue, if_neg (by simp), h2]
      show fromEncodedElement .point (.point 0) c.sys.vars = _
      rw [h3]
      rfl
    · rw [System.solve, bind_eq_ok] at hs
      obtain ⟨st, -, hs⟩ := hs
      cases hs
      simp only at hv
      rw [System.getValue, if_neg (by simp)]
      simp only
      rw [h2, hv, hk]
      show (.ok (.point ⟨A.rnd (5 * A.rnd (1 * A.rnd (1 / 5)))⟩ ⟨A.rnd (5 * A.rnd (7 * A.rnd (1 / 5)))⟩) : R (ElementValue (Fl A))) = _
      rw [rnd_fifth hA, rnd_seven_fifths hA, rnd_seven hA, one_mul, binary64_exact hA (x := 7205759403792794 / 2 ^ 55) ⟨7205759403792794, -55, by norm_num, by norm_num [zpow_neg]⟩]
      rw [rnd_one hA]
  · set k := 1 / c.sys.scale with hkk
    have hT : c.sys.scaledVariables = [(⟨1⟩ : Fl A) * k, ⟨7⟩ * k, ⟨1⟩ * k, ⟨7⟩ * k] := by
      rw [System.scaledVariables, h3]
      rfl
    have hE : c.sys.scaledExpressions = [.variableVariableEquality 0 2, .variableVariableEquality 1 3] := by
      rw [System.scaledExpressions, h5]
      rfl
    rw [hT, hE]
    have hok : Subsystem.Ok (⟨[(⟨1⟩ : Fl A) * k, ⟨7⟩ * k, ⟨1⟩ * k, ⟨7⟩ * k], [.variableVariableEquality 0 2, .variableVariableEquality 1 3], [0, 1], [0, 1, 2, 3]⟩ : Subsystem (Fl A)) := by
      intro id hid
      simp only [List.mem_cons, List.not_mem_nil, or_false] at hid
      rcases hid with rfl | rfl
      · exact ⟨_, rfl, by simp [Expr.variableIndices]⟩
      · exact ⟨_, rfl, by simp [Expr.variableIndices]⟩
    have hres : (⟨[(⟨1⟩ : Fl A) * k, ⟨7⟩ * k, ⟨1⟩ * k, ⟨7⟩ * k], [.variableVariableEquality 0 2, .variableVariableEquality 1 3], [0, 1], [0, 1, 2, 3]⟩ : Subsystem (Fl A)).problem.residuals
        [(⟨1⟩ : Fl A) * k, ⟨7⟩ * k, ⟨1⟩ * k, ⟨7⟩ * k] = .ok [(⟨1⟩ : Fl A) * k - ⟨1⟩ * k, (⟨7⟩ : Fl A) * k - ⟨7⟩ * k] := rfl
    have hz : ∀ x : Fl A, (x - x).val = 0 := by
      intro x
      show A.rnd (x.val - x.val) = 0
      rw [sub_self]
      exact binary64_exact hA representable_zero
    refine lm_stays hok.total (Subsystem.problem_consistent _) (qrColamd_sturdy cast hsort) (h.fits (by simp [samePairOps]) _ _ _ (by rw [h5]; rfl) (by rw [h3]; rfl) (Subsystem.size_le _)) rfl
      (fun r hr => ?_)
    rw [hres] at hr
    cases hr
    refine (small_stops hA' le_rfl (n := 2) (B := 0) (by norm_num) (by norm_num) (by simp) (fun y hy => ?_)).1
    simp only [List.mem_cons, List.not_mem_nil, or_false] at hy
    rcases hy with rfl | rfl <;> rw [hz, abs_zero]

end Fiksi
