import Verif.Props.NotWorse
import Verif.Props.Unlinked
/-!
# C87: solving a second time
-/
namespace Fiksi
open Spec

/-- The squares of few small numbers. -/
theorem sum_squares_few {N b : ℝ} (hb : 0 < b) {r : List ℝ} (hN : (r.length : ℝ) ≤ N) (h : ∀ y ∈ r, N * y ^ 2 < b) : (r.map (· ^ 2)).sum < b := by
  have key : ∀ l : List ℝ, (∀ y ∈ l, N * y ^ 2 < b) → N * (l.map (· ^ 2)).sum ≤ l.length * b := by
    intro l
    induction l with
    | nil => simp
    | cons a l ih =>
      intro hl
      have h1 := hl a (by simp)
      have h2 := ih fun y hy => hl y (by simp [hy])
      simp only [List.map_cons, List.sum_cons, List.length_cons]
      push_cast
      linarith
  cases r with
  | nil => simpa using hb
  | cons a l =>
    have h1 := h a (by simp)
    have h2 := key l fun y hy => h y (by simp [hy])
    simp only [List.length_cons, List.map_cons, List.sum_cons] at hN ⊢
    push_cast at hN
    have hpos : 0 < N := lt_of_lt_of_le (by positivity) hN
    have h3 : ((l.length : ℝ) + 1) * b ≤ N * b := mul_le_mul_of_nonneg_right hN hb.le
    exact lt_of_mul_lt_mul_left (by linarith : N * (a ^ 2 + (l.map (· ^ 2)).sum) < N * b) hpos.le

/-- A figure whose constraints have small residuals, in units of its size, is left as it is: `2m` times the square of each of the `m` residuals is below `10⁻⁸`. Exact arithmetic, any history, both
optimisers, the decomposers `None` and `SinglePass`, no perturbation. -/
theorem C87_small_errors_rest {counter : Nat} {ops : List (Op ℝ)} {c : Client ℝ} (h : Reaches counter ops c) (hnz : ((Store.empty ℝ).run ops).NonZero) (cast : ℝ → Int) {sort : SortByKey}
    (hsort : Sorts sort) (hshort : ops.length < 2 ^ 24)
    (hsmall : ∀ (n : Nat) hdl con r, c.conHandles[n]? = some hdl → ((Store.empty ℝ).run ops).cons[n]? = some con → c.sys.calculateResidual con.kind hdl = .ok r →
      2 * ((Store.empty ℝ).run ops).cons.length * (r / ((Store.empty ℝ).run ops).size ^ con.lengthPower) ^ 2 < 1 / 10 ^ 8)
    {fuel : Nat} {ord : HashOrder} (hord : ord.Ok) {opts : SolvingOptions} (hd : opts.decomposer ≠ .recursiveAssembly) (hp : opts.perturb = false) :
    c.sys.solve (crateOptimize (qrLeastSquares sort (colamdOfStructure cast)) fuel) ord opts = .ok c.sys := by
  have hr := h.crel.rel
  have hpos := h.scale_pos hnz
  rw [← hr.scale_size] at hsmall
  have hcount : (c.sys.expressions.length : ℝ) ≤ 2 * ((Store.empty ℝ).run ops).cons.length := by
    rw [hr.exprs, flatMap_encCon_length]
    have : ∀ l : List (Spec.Con ℝ), (l.map Spec.Con.equations).sum ≤ 2 * l.length := by
      intro l
      induction l with
      | nil => simp
      | cons a l ih =>
        have : a.equations ≤ 2 := by cases a <;> simp [Spec.Con.equations]
        simp only [List.map_cons, List.sum_cons, List.length_cons]
        omega
    exact_mod_cast this _
  have a1 : ∀ e ∈ c.sys.scaledExpressions, ∀ r, e.calculateResidual (identityMap c.sys.scaledVariables) = .ok r →
      2 * ((Store.empty ℝ).run ops).cons.length * r ^ 2 < 1 / 10 ^ 8 := by
    intro e he r her
    rw [System.scaledExpressions, List.mem_map] at he
    obtain ⟨e0, he0, rfl⟩ := he
    rw [hr.exprs, List.mem_flatMap] at he0
    obtain ⟨con, hcon, he0⟩ := he0
    obtain ⟨n, hcon⟩ := List.mem_iff_getElem?.1 hcon
    obtain ⟨j, hj⟩ := List.mem_iff_getElem?.1 he0
    have hjl := lt_of_getElem? hj
    have hlen := encCon_length ((Store.empty ℝ).run ops).elems con
    have h1 := hr.expression_at hcon (j := j) (by omega)
    rw [hj, flatMap_encCon_length] at h1
    obtain ⟨ρ, -, hρ⟩ := h.crel.calculateResidual hcon
    have h2 := hsmall n _ con ρ (h.crel.conHandle (lt_of_getElem? hcon)) hcon hρ
    rw [System.calculateResidual, if_neg (by simp)] at hρ
    have h3 := hr.residual_squares hpos (V := c.sys.vars) hcon hρ
    have h4 : residualAt c.sys.scaledExpressions c.sys.scale c.sys.vars (((Store.empty ℝ).run ops).firstEquation n + j) = r :=
      residualAt_of (by rw [System.scaledExpressions, List.getElem?_map]; erw [h1]; rfl) her
    have h5 := Finset.single_le_sum (f := fun i => residualAt c.sys.scaledExpressions c.sys.scale c.sys.vars i ^ 2) (fun i _ => sq_nonneg _)
      (show ((Store.empty ℝ).run ops).firstEquation n + j ∈ Finset.Ico (((Store.empty ℝ).run ops).firstEquation n) (((Store.empty ℝ).run ops).firstEquation n + con.equations) by
        rw [Finset.mem_Ico, con_equations_eq]
        omega)
    simp only [h4, ← h3] at h5
    exact lt_of_le_of_lt (mul_le_mul_of_nonneg_left h5 (by positivity)) h2
  have a2 : ∀ r : List ℝ, r.length ≤ c.sys.expressions.length → (∀ y ∈ r, 2 * ((Store.empty ℝ).run ops).cons.length * y ^ 2 < 1 / 10 ^ 8) →
      sumSquares r < 1 / 10 ^ 8 := by
    intro r hl hy
    have hl' : (r.length : ℝ) ≤ c.sys.expressions.length := by exact_mod_cast hl
    rw [sumSquares_real]
    exact sum_squares_few (by norm_num) (hl'.trans hcount) hy
  obtain ⟨V', e1, e2, e3⟩ := h.crate_stays cast hsort hshort (Small := fun y => 2 * ((Store.empty ℝ).run ops).cons.length * y ^ 2 < 1 / 10 ^ 8) a1
    (fun r hl hy => by
      have h9 : normSquared (r.map (fun r => -r)) = sumSquares r := by
        rw [normSquared_neg (fun x => neg_mul_neg x x), normSquared_real, sumSquares_real]
        simp only [sq]
      rw [h9]
      refine decide_eq_true ?_
      show sumSquares r < (1 : ℕ) / ((10 ^ 8 : ℕ) : ℝ)
      push_cast
      exact lt_of_lt_of_eq (a2 r hl hy) (by norm_num))
    (fun r hl hy => by
      refine decide_eq_true ?_
      show sumSquares r < (1 : ℕ) / ((10000 : ℕ) : ℝ)
      push_cast
      exact (a2 r hl hy).trans (by norm_num))
    (fuel := fuel) hord hd hp
  have : V' = c.sys.vars := by
    refine List.ext_getElem? fun v => ?_
    cases hv : c.sys.vars[v]? with
    | none =>
      rw [List.getElem?_eq_none_iff] at hv ⊢
      rw [e2]
      exact hv
    | some x =>
      rcases e3 v x hv with e4 | e4
      · exact e4
      · rw [e4]
        congr 1
        have := hpos.ne'
        field_simp
  rw [e1, this]

/-- C87 (partial): if the residuals of the figure that `solve` has returned are small in units of its own size, a second `solve` changes nothing, whatever the options of the first one were. (Full statement: a
second `solve` changes nothing after every successful one; false, see `C87_second_solve_moves`.) -/
theorem C87_again_partial {counter : Nat} {ops : List (Op ℝ)} {c : Client ℝ} (h : Reaches counter ops c) (cast : ℝ → Int) {sort : SortByKey} (hsort : Sorts sort)
    (hshort : ops.length + 1 < 2 ^ 24) {ord : HashOrder} (hord : ord.Ok) {optimize : Optimize ℝ} {first : SolvingOptions} {s' : System ℝ} (hs : c.sys.solve optimize ord first = .ok s') :
    ∃ result, Reaches counter (ops ++ [.solve result]) { c with sys := s' } ∧ (((Store.empty ℝ).run (ops ++ [.solve result])).NonZero →
      (∀ (n : Nat) hdl con r, c.conHandles[n]? = some hdl → ((Store.empty ℝ).run ops).cons[n]? = some con → s'.calculateResidual con.kind hdl = .ok r →
        2 * ((Store.empty ℝ).run ops).cons.length * (r / ((Store.empty ℝ).run (ops ++ [.solve result])).size ^ con.lengthPower) ^ 2 < 1 / 10 ^ 8) →
      ∀ (fuel : Nat) (opts : SolvingOptions), opts.decomposer ≠ .recursiveAssembly → opts.perturb = false →
        s'.solve (crateOptimize (qrLeastSquares sort (colamdOfStructure cast)) fuel) ord opts = .ok s') := by
  obtain ⟨result, h1⟩ := C25_solve_is_a_call h (by omega) hord hs
  have hcons : ((Store.empty ℝ).run (ops ++ [.solve result])).cons = ((Store.empty ℝ).run ops).cons := by
    rw [Store.run, List.foldl_append]
    rfl
  refine ⟨result, h1, fun hnz hsmall fuel opts hd hp => ?_⟩
  exact C87_small_errors_rest h1 hnz cast hsort (by simpa using hshort) (by rw [hcons]; exact hsmall) hord hd hp

/-- Two points that shall coincide and nearly do. -/
noncomputable def nearlyOps : List (Op ℝ) := [.createPoint 1 0, .createPoint 1 (1 / 10 ^ 5), .createCon (.pointPointCoincidence 0 1)]

/-- A case for C87: a residual of `10⁻⁵`, not zero; the figure is left as it is by the first `solve` and by every other one. -/
example (cast : ℝ → Int) {sort : SortByKey} (hsort : Sorts sort) {ord : HashOrder} (hord : ord.Ok) (o : Optimizer) : ∃ c, Reaches 0 nearlyOps c ∧ ((Store.empty ℝ).run nearlyOps).NonZero ∧
    c.sys.calculateResidual .pointPointCoincidence ⟨0, 0⟩ = .ok (1 / 10 ^ 5) ∧
    ∀ fuel, c.sys.solve (crateOptimize (qrLeastSquares sort (colamdOfStructure cast)) fuel) ord ⟨o, .none, false⟩ = .ok c.sys := by
  obtain ⟨c, h⟩ := exists_reaches 0 nearlyOps (by
    simp [nearlyOps, Store.LegalRun, Store.Legal, Store.empty, Store.step, Store.IsPoint, Store.ConOk]) (by simp [nearlyOps])
  have hnz : ((Store.empty ℝ).run nearlyOps).NonZero := ⟨.point 1 0, by simp [nearlyOps, Store.run, Store.empty, Store.step], .inl ⟨1, 0, rfl, .inl (by norm_num)⟩⟩
  have hres : c.sys.calculateResidual .pointPointCoincidence ⟨0, 0⟩ = .ok (1 / 10 ^ 5) := by
    have key : ((Client.new ℝ 0).run nearlyOps >>= fun c => c.sys.calculateResidual .pointPointCoincidence ⟨0, 0⟩) =
      .ok (√(0 + (1 - 1) * (1 - 1) + (1 / 10 ^ 5 - 0) * (1 / 10 ^ 5 - 0))) := rfl
    rw [h.run, ok_bind] at key
    rw [key, show (0 + (1 - 1) * (1 - 1) + (1 / 10 ^ 5 - 0) * (1 / 10 ^ 5 - 0) : ℝ) = (1 / 10 ^ 5) ^ 2 by norm_num, Real.sqrt_sq (by norm_num)]
  refine ⟨c, h, hnz, hres, fun fuel => C87_small_errors_rest h hnz cast hsort (by simp [nearlyOps]) (fun n hdl con r hh hcon hr => ?_) hord (by simp) rfl⟩
  have hc : ((Store.empty ℝ).run nearlyOps).cons = [.pointPointCoincidence 0 1] := rfl
  have hlt := lt_of_getElem? hcon
  rw [h.crel.conHandle hlt] at hh
  cases hh
  rw [hc] at hlt hcon ⊢
  obtain rfl : n = 0 := by simpa using hlt
  cases hcon
  rw [h.sysId] at hr
  change c.sys.calculateResidual .pointPointCoincidence ⟨0, 0⟩ = _ at hr
  rw [hres] at hr
  cases hr
  have hsize : ((Store.empty ℝ).run nearlyOps).size ^ 2 = (2 + 1 / 10 ^ 10) / 4 := by
    have : ((Store.empty ℝ).run nearlyOps).size = √(([1, 0, 1, 1 / 10 ^ 5].map (fun x : ℝ => x ^ 2)).sum / ((4 : ℕ) : ℝ)) := rfl
    rw [this, Real.sq_sqrt (by simp; positivity)]
    norm_num
  show 2 * ((1 : ℕ) : ℝ) * (1 / 10 ^ 5 / ((Store.empty ℝ).run nearlyOps).size ^ 1) ^ 2 < 1 / 10 ^ 8
  rw [pow_one, div_pow, hsize]
  norm_num

/-- Two pairs of points that shall coincide. One point is fixed in the origin, its partner is far away; the points of the other pair are 1 apart. -/
noncomputable def farNearOps : List (Op ℝ) :=
  [.createPoint 0 0, .createPoint (2 * 10 ^ 6) 0, .createPoint 0 0, .createPoint 1 0, .fix .point 0, .createCon (.pointPointCoincidence 0 1), .createCon (.pointPointCoincidence 2 3)]

theorem farNear_reaches : ∃ c, Reaches 0 farNearOps c := exists_reaches 0 _ (by
  simp [farNearOps, Store.LegalRun, Store.Legal, Store.empty, Store.step, Store.IsPoint, Store.ConOk, Elem.kind]) (by simp [farNearOps])

/-- The far pair together, at a place that gives the figure the same size. -/
noncomputable def farNearMoves : List (Op ℝ) := [.updatePoint 0 (10 ^ 6) (10 ^ 6), .updatePoint 1 (10 ^ 6) (10 ^ 6)]

theorem farNear_moved : ∃ c, Reaches 0 (farNearOps ++ farNearMoves) c := exists_reaches 0 _ (by
  simp [farNearOps, farNearMoves, Store.LegalRun, Store.Legal, Store.empty, Store.step, Store.IsPoint, Store.ConOk, Elem.kind]) (by simp [farNearOps, farNearMoves])

theorem farNear_read {c : Client ℝ} (h : Reaches 0 farNearOps c) (a b x y p q r t : ℝ) : ({ c.sys with vars := [a, b, x, y, p, q, r, t] } : System ℝ).getValue .point ⟨0, 0⟩ = .ok (.point a b) ∧
    ({ c.sys with vars := [a, b, x, y, p, q, r, t] } : System ℝ).getValue .point ⟨0, 2⟩ = .ok (.point p q) ∧
    ({ c.sys with vars := [a, b, x, y, p, q, r, t] } : System ℝ).getValue .point ⟨0, 3⟩ = .ok (.point r t) ∧
    ({ c.sys with vars := [a, b, x, y, p, q, r, t] } : System ℝ).calculateResidual .pointPointCoincidence ⟨0, 0⟩ = .ok (√(0 + (x - a) * (x - a) + (y - b) * (y - b))) ∧
    ({ c.sys with vars := [a, b, x, y, p, q, r, t] } : System ℝ).calculateResidual .pointPointCoincidence ⟨0, 1⟩ = .ok (√(0 + (r - p) * (r - p) + (t - q) * (t - q))) := by
  have k1 : ((Client.new ℝ 0).run farNearOps >>= fun c => ({ c.sys with vars := [a, b, x, y, p, q, r, t] } : System ℝ).getValue .point ⟨0, 0⟩) = .ok (.point a b) := rfl
  have k2 : ((Client.new ℝ 0).run farNearOps >>= fun c => ({ c.sys with vars := [a, b, x, y, p, q, r, t] } : System ℝ).getValue .point ⟨0, 2⟩) = .ok (.point p q) := rfl
  have k3 : ((Client.new ℝ 0).run farNearOps >>= fun c => ({ c.sys with vars := [a, b, x, y, p, q, r, t] } : System ℝ).getValue .point ⟨0, 3⟩) = .ok (.point r t) := rfl
  have k4 : ((Client.new ℝ 0).run farNearOps >>= fun c => ({ c.sys with vars := [a, b, x, y, p, q, r, t] } : System ℝ).calculateResidual .pointPointCoincidence ⟨0, 0⟩) =
    .ok (√(0 + (x - a) * (x - a) + (y - b) * (y - b))) := rfl
  have k5 : ((Client.new ℝ 0).run farNearOps >>= fun c => ({ c.sys with vars := [a, b, x, y, p, q, r, t] } : System ℝ).calculateResidual .pointPointCoincidence ⟨0, 1⟩) =
    .ok (√(0 + (r - p) * (r - p) + (t - q) * (t - q))) := rfl
  rw [h.run, ok_bind] at k1 k2 k3 k4 k5
  exact ⟨k1, k2, k3, k4, k5⟩

theorem farNear_neverJoins {st : Store ℝ} (h : st.arguments = [[0, 1], [2, 3]]) : NeverJoins st.arguments := by
  rw [h]
  exact neverJoins_two _ _

/-- C87, the full claim fails: the unit of length of the second `solve` is that of the figure that the first one has left. Here the first `solve` brings the far pair together as closely as it can be asked for
(`10⁻⁴` of its unit) and leaves the near pair 1 apart, which is nothing in the same unit; after that the figure is small, and the second `solve` moves the near pair together. -/
theorem C87_second_solve_moves (cast : ℝ → Int) {sort : SortByKey} (hsort : Spec.Sorts sort) {ord : HashOrder} (hord : ord.Ok) :
    ∃ c, Reaches 0 farNearOps c ∧ ∃ s s' k, (∀ fuel, k ≤ fuel → c.sys.solve (crateOptimize (qrLeastSquares sort (colamdOfStructure cast)) fuel) ord ⟨.levenbergMarquardt, .none, false⟩ = .ok s ∧
        s.solve (crateOptimize (qrLeastSquares sort (colamdOfStructure cast)) fuel) ord ⟨.levenbergMarquardt, .none, false⟩ = .ok s') ∧
      (∃ r, s.calculateResidual .pointPointCoincidence ⟨0, 0⟩ = .ok r ∧ |r| ≤ 150) ∧ s.calculateResidual .pointPointCoincidence ⟨0, 1⟩ = .ok 1 ∧
      ∃ r, s'.calculateResidual .pointPointCoincidence ⟨0, 1⟩ = .ok r ∧ |r| ≤ 1 / 100 := by
  obtain ⟨c, h⟩ := farNear_reaches
  obtain ⟨c', h'⟩ := farNear_moved
  have hc : ((Store.empty ℝ).run farNearOps).cons = [.pointPointCoincidence 0 1, .pointPointCoincidence 2 3] := rfl
  have hfx : ((Store.empty ℝ).run farNearOps).fixed = {0} := by simp [farNearOps, Store.run, Store.empty, Store.step, Store.primitives]
  have h1 : c.sys.vars = [0, 0, 2 * 10 ^ 6, 0, 0, 0, 1, 0] := by rw [h.crel.rel.vars]; rfl
  have h2 : c'.sys.vars = [10 ^ 6, 10 ^ 6, 10 ^ 6, 10 ^ 6, 0, 0, 1, 0] := by rw [h'.crel.rel.vars]; rfl
  have h3 : c.sys.expressions = [.variableVariableEquality 0 2, .variableVariableEquality 1 3, .variableVariableEquality 4 6, .variableVariableEquality 5 7] := by rw [h.crel.rel.exprs]; rfl
  have h4 : c'.sys.expressions = [.variableVariableEquality 0 2, .variableVariableEquality 1 3, .variableVariableEquality 4 6, .variableVariableEquality 5 7] := by rw [h'.crel.rel.exprs]; rfl
  have hscale : ∀ (s : System ℝ) (a b x y p q r t : ℝ), s.vars = [a, b, x, y, p, q, r, t] →
      s.expressions = [.variableVariableEquality 0 2, .variableVariableEquality 1 3, .variableVariableEquality 4 6, .variableVariableEquality 5 7] →
      s.scale = √((a * a + b * b + x * x + y * y + p * p + q * q + r * r + t * t) / 8) := by
    intro s a b x y p q r t hv he
    rw [System.scale, hv, he]
    show Real.sqrt ((0 + a * a + b * b + x * x + y * y + p * p + q * q + r * r + t * t) / ((8 : ℕ) : ℝ)) = _
    norm_num
  have hsc := hscale _ _ _ _ _ _ _ _ _ h1 h3
  have hsc' := hscale _ _ _ _ _ _ _ _ _ h2 h4
  have hr2 : √2 ≤ (3 / 2 : ℝ) := by
    rw [Real.sqrt_le_left (by norm_num)]
    norm_num
  obtain ⟨s, k, h5, h6⟩ := C69_coincidences_solved_partial h (farNear_neverJoins rfl) ⟨.point 1 0, by simp [farNearOps, Store.run, Store.empty, Store.step], .inl ⟨1, 0, rfl, .inl (by norm_num)⟩⟩
    (fun con hcon => by
      rw [hc] at hcon
      simp only [List.mem_cons, List.not_mem_nil, or_false] at hcon
      rcases hcon with rfl | rfl <;> exact ⟨_, _, rfl⟩)
    ⟨fun _ => (0, 0), fun i hi x y hxy => by
      rw [hfx, Finset.mem_singleton] at hi
      subst hi
      have : ((Store.empty ℝ).run farNearOps).elems[0]? = some (.point 0 0) := rfl
      rw [this] at hxy
      cases hxy
      rfl, fun _ _ _ => rfl⟩ (by simp [farNearOps]) cast hsort hord (opts := ⟨.levenbergMarquardt, .none, false⟩) rfl rfl
  have hs := h5 k le_rfl
  -- the near pair does not move
  have hstay : c'.sys.solve (crateOptimize (qrLeastSquares sort (colamdOfStructure cast)) k) ord ⟨.levenbergMarquardt, .none, false⟩ = .ok c'.sys := by
    have hnz : ((Store.empty ℝ).run (farNearOps ++ farNearMoves)).NonZero :=
      ⟨.point 1 0, by simp [farNearOps, farNearMoves, Store.run, Store.empty, Store.step], .inl ⟨1, 0, rfl, .inl (by norm_num)⟩⟩
    refine C87_small_errors_rest h' hnz cast hsort (by simp [farNearOps, farNearMoves]) (fun n hdl con r hh hcon hr => ?_) hord (by simp) rfl
    have hc' : ((Store.empty ℝ).run (farNearOps ++ farNearMoves)).cons = [.pointPointCoincidence 0 1, .pointPointCoincidence 2 3] := rfl
    have hq : (10 : ℝ) ^ 10 ≤ c'.sys.scale ^ 2 := by
      rw [hsc', Real.sq_sqrt (by positivity)]
      norm_num
    have hlt := lt_of_getElem? hcon
    rw [h'.crel.conHandle hlt] at hh
    cases hh
    rw [hc'] at hcon ⊢
    rw [← h'.crel.rel.scale_size, h'.sysId] at *
    have key : ∀ n < 2, ∃ x : ℝ, x ≤ 1 ∧ 0 ≤ x ∧ ((Client.new ℝ 0).run (farNearOps ++ farNearMoves) >>= fun c => c.sys.calculateResidual .pointPointCoincidence ⟨0, n⟩) = .ok (√x) := by
      intro n hn
      match n, hn with
      | 0, _ => exact ⟨0 + (10 ^ 6 - 10 ^ 6) * (10 ^ 6 - 10 ^ 6) + (10 ^ 6 - 10 ^ 6) * (10 ^ 6 - 10 ^ 6), by norm_num, by norm_num, rfl⟩
      | 1, _ => exact ⟨0 + (1 - 0) * (1 - 0) + (0 - 0) * (0 - 0), by norm_num, by norm_num, rfl⟩
    rw [hc'] at hlt
    obtain ⟨x, hx1, hx0, hx⟩ := key n (by simpa using hlt)
    rw [h'.run, ok_bind] at hx
    have hkind : con.kind = .pointPointCoincidence ∧ con.lengthPower = 1 := by
      match n, hlt, hcon with
      | 0, _, hcon => cases hcon; exact ⟨rfl, rfl⟩
      | 1, _, hcon => cases hcon; exact ⟨rfl, rfl⟩
    rw [hkind.1, hx] at hr
    cases hr
    rw [hkind.2, pow_one, div_pow, Real.sq_sqrt hx0]
    have hle : x / c'.sys.scale ^ 2 ≤ 1 / 10 ^ 10 := div_le_div₀ (by norm_num) hx1 (by norm_num) hq
    have : (2 * (([Spec.Con.pointPointCoincidence 0 1, .pointPointCoincidence 2 3] : List (Spec.Con ℝ)).length : ℝ)) = 4 := by norm_num
    rw [this]
    linarith
  have hcl : ((Store.empty ℝ).run farNearOps).ClosedSet {2, 3} := by
    intro con hcon
    rw [hc] at hcon
    simp only [List.mem_cons, List.not_mem_nil, or_false] at hcon
    rcases hcon with rfl | rfl
    · exact .inr (by simp [Store.actsOn])
    · exact .inl (by simp [Store.actsOn])
  have hsame : c'.sys.scale = c.sys.scale := by
    rw [hsc, hsc']
    norm_num
  have hkeep : ∀ i : Nat, i = 2 ∨ i = 3 → ∃ v, s.getValue .point ⟨0, i⟩ = .ok v ∧ c'.sys.getValue .point ⟨0, i⟩ = .ok v := by
    rintro i (rfl | rfl)
    · exact C73_unlinked_parts_independent_partial h hcl h' (by simp [farNearMoves, Store.Outside]) hsame hord hs hstay (i := 2) (e := .point 0 0) rfl
        (by simp [farNearOps, Store.primitives, Store.run, Store.empty, Store.step])
    · exact C73_unlinked_parts_independent_partial h hcl h' (by simp [farNearMoves, Store.Outside]) hsame hord hs hstay (i := 3) (e := .point 1 0) rfl
        (by simp [farNearOps, Store.primitives, Store.run, Store.empty, Store.step])
  have hold : ∀ i : Nat, i = 2 ∨ i = 3 → c'.sys.getValue .point ⟨0, i⟩ = .ok (.point (if i = 2 then 0 else 1) 0) := by
    have k2 : ((Client.new ℝ 0).run (farNearOps ++ farNearMoves) >>= fun c => c.sys.getValue .point ⟨0, 2⟩) = .ok (.point 0 0) := rfl
    have k3 : ((Client.new ℝ 0).run (farNearOps ++ farNearMoves) >>= fun c => c.sys.getValue .point ⟨0, 3⟩) = .ok (.point 1 0) := rfl
    rw [h'.run, ok_bind] at k2 k3
    rintro i (rfl | rfl)
    · exact k2
    · exact k3
  obtain ⟨v0, f1, f2⟩ := C23_fixed_not_moved_partial h hord (by simp) hs (i := 0) (e := .point 0 0) rfl
    (by rw [hfx]; simp [farNearOps, Store.primitives, Store.run, Store.empty, Store.step])
  rw [h.sysId] at f1 f2
  change c.sys.getValue .point ⟨0, 0⟩ = _ at f1
  change s.getValue .point ⟨0, 0⟩ = _ at f2
  -- the values after the first call
  obtain ⟨e1, e2, -⟩ := C25_solve_only_changes_values h hord hs
  rw [h1] at e2
  obtain ⟨a, b, x, y, p, q, r, t, hV⟩ : ∃ a b x y p q r t, s.vars = [a, b, x, y, p, q, r, t] := by
    match s.vars, e2 with
    | [a, b, x, y, p, q, r, t], _ => exact ⟨a, b, x, y, p, q, r, t, rfl⟩
  rw [hV] at e1
  obtain ⟨g0, g2, g3, r0, r1⟩ := farNear_read h a b x y p q r t
  obtain ⟨g0', -⟩ := farNear_read h 0 0 (2 * 10 ^ 6) 0 0 0 1 0
  rw [show ({ c.sys with vars := [0, 0, 2 * 10 ^ 6, 0, 0, 0, 1, 0] } : System ℝ) = c.sys by rw [← h1], f1] at g0'
  rw [← e1] at g0 g2 g3 r0 r1
  rw [f2, g0'] at g0
  obtain ⟨v2, m1, m2⟩ := hkeep 2 (.inl rfl)
  obtain ⟨v3, m3, m4⟩ := hkeep 3 (.inr rfl)
  rw [hold 2 (.inl rfl)] at m2
  rw [hold 3 (.inr rfl)] at m4
  cases m2
  cases m4
  rw [g2] at m1
  rw [g3] at m3
  simp only [↓reduceIte, Except.ok.injEq, ElementValue.point.injEq, Nat.reduceEqDiff] at m1 m3 g0
  obtain ⟨rfl, rfl⟩ := m1
  obtain ⟨rfl, rfl⟩ := m3
  obtain ⟨rfl, rfl⟩ := g0
  obtain ⟨ρ, n1, n2⟩ := h6 0 ⟨c.sys.id, 0⟩ 0 1 (h.crel.conHandle (by rw [hc]; simp)) (by rw [hc]; rfl)
  rw [h.sysId, r0] at n1
  cases n1
  have htol : ∀ σ : ℝ, 0 ≤ σ → ∀ n : Nat, n ≤ 8 → √2 * (σ * max (1 / 10 ^ 4) (((n : ℝ) + 5) / 10 ^ 6)) ≤ σ * (3 / 20000) := by
    intro σ hσ n hn
    have hn' : (n : ℝ) ≤ 8 := by exact_mod_cast hn
    rw [max_eq_left (by rw [div_le_div_iff₀ (by norm_num) (by norm_num)]; linarith)]
    calc √2 * (σ * (1 / 10 ^ 4)) ≤ 3 / 2 * (σ * (1 / 10 ^ 4)) := mul_le_mul_of_nonneg_right hr2 (by positivity)
      _ = σ * (3 / 20000) := by ring
  have hb0 : √(0 + (x - 0) * (x - 0) + (y - 0) * (y - 0)) ≤ 150 := by
    refine (le_abs_self _).trans (n2.trans ((htol c.sys.scale (by rw [hsc]; positivity) _ (by simp [farNearOps])).trans ?_))
    have : c.sys.scale ≤ 10 ^ 6 := by
      rw [hsc, Real.sqrt_le_left (by norm_num)]
      norm_num
    linarith
  have hxy : x * x + y * y ≤ 22500 := by
    have := (Real.sqrt_le_left (by norm_num)).1 hb0
    nlinarith
  obtain ⟨result, h7⟩ := C25_solve_is_a_call h (by simp [farNearOps]) hord hs
  have hcons : ((Store.empty ℝ).run (farNearOps ++ [.solve result])).cons = ((Store.empty ℝ).run farNearOps).cons := rfl
  have hfixed : ((Store.empty ℝ).run (farNearOps ++ [.solve result])).fixed = ((Store.empty ℝ).run farNearOps).fixed := rfl
  have helems : ((Store.empty ℝ).run (farNearOps ++ [.solve result])).elems = result := rfl
  have hshape : List.Forall₂ SameShape ((Store.empty ℝ).run farNearOps).elems result := ((legalRun_append _ _ _).1 h7.legal).2.1
  have hel : ((Store.empty ℝ).run farNearOps).elems = [.point 0 0, .point (2 * 10 ^ 6) 0, .point 0 0, .point 1 0] := rfl
  obtain rfl : result = [.point 0 0, .point x y, .point 0 0, .point 1 0] := by
    rw [hel] at hshape
    have hv := h7.crel.rel.vars
    rw [helems] at hv
    change s.vars = _ at hv
    rw [hV] at hv
    match result, hshape with
    | [.point _ _, .point _ _, .point _ _, .point _ _], _ =>
      simp only [List.flatMap_cons, List.flatMap_nil, elemValues, List.cons_append, List.nil_append, List.append_nil, List.cons.injEq, and_true] at hv
      obtain ⟨rfl, rfl, rfl, rfl, rfl, rfl, rfl, rfl⟩ := hv
      rfl
  obtain ⟨s2, k2, h8, h9⟩ := C69_coincidences_solved_partial h7 (farNear_neverJoins rfl) ⟨.point 1 0, by rw [helems]; simp, .inl ⟨1, 0, rfl, .inl (by norm_num)⟩⟩
    (fun con hcon => by
      rw [hcons, hc] at hcon
      simp only [List.mem_cons, List.not_mem_nil, or_false] at hcon
      rcases hcon with rfl | rfl <;> exact ⟨_, _, rfl⟩)
    ⟨fun _ => (0, 0), fun i hi u v huv => by
      rw [hfixed, hfx, Finset.mem_singleton] at hi
      subst hi
      rw [helems] at huv
      cases huv
      rfl, fun _ _ _ => rfl⟩ (by simp [farNearOps]) cast hsort hord (opts := ⟨.levenbergMarquardt, .none, false⟩) rfl rfl
  refine ⟨c, h, s, s2, max k k2, fun fuel hf => ⟨h5 fuel (le_of_max_le_left hf), h8 fuel (le_of_max_le_right hf)⟩, ⟨_, r0, ?_⟩, ?_, ?_⟩
  · rwa [abs_of_nonneg (Real.sqrt_nonneg _)]
  · rw [r1]
    norm_num
  · obtain ⟨ρ, n1, n3⟩ := h9 1 ⟨0, 1⟩ 2 3 (by
      have := h7.crel.conHandle (i := 1) (by rw [hcons, hc]; simp)
      rw [h7.sysId] at this
      exact this) (by rw [hcons, hc]; rfl)
    refine ⟨ρ, n1, n3.trans ((htol s.scale (Real.sqrt_nonneg _) _ (by simp [farNearOps])).trans ?_)⟩
    have : s.scale ≤ 54 := by
      rw [hscale s _ _ _ _ _ _ _ _ hV (by rw [e1]; exact h3), Real.sqrt_le_left (by norm_num)]
      linarith
    linarith

end Fiksi
