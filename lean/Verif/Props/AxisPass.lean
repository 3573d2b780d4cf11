import Verif.Props.Figures
import Verif.Props.Lengths
/-!
# C74, a case: `SinglePass` prefers a direction of the plane
-/
namespace Fiksi
open Spec

/-- Along an axis: the second coordinates are fixed and agree. -/
theorem Subsystem.Ok.axis_gap {sub : Subsystem ℝ} (hok : sub.Ok) {id p q : Nat} {d : ℝ} (hids : sub.expressions = [id]) (he : sub.allExpressions[id]? = some (.pointPointDistance p q d))
    (hn : [p, p + 1, q, q + 1].Nodup) (hp : p + 1 ∉ sub.freeVariables) (hq : q + 1 ∉ sub.freeVariables) (hsame : sub.systemVariables.getD (p + 1) 0 = sub.systemVariables.getD (q + 1) 0)
    (hfree : p ∈ sub.freeVariables ∨ q ∈ sub.freeVariables) :
    ∃ P : Fitting, sub.problem.Computes P sub.pattern ∧ P.m = 1 ∧ P.n = sub.freeVariables.length ∧ (∀ x, x.length = sub.freeVariables.length → sub.calculateResiduals x = .ok (P.res x)) ∧
      P.Gap (fun x => sub.valueOf x p - sub.valueOf x q) (fun x => sub.valueOf x (p + 1) - sub.valueOf x (q + 1)) (fun _ => d) (act sub.freeVariables p + act sub.freeVariables q) 0 := by
  obtain ⟨P, h1, h2, h3, h4, h5⟩ := hok.single hids he hn
  have hp' : act sub.freeVariables (p + 1) = 0 := by simp only [act, hp, if_false]
  have hq' : act sub.freeVariables (q + 1) = 0 := by simp only [act, hq, if_false]
  have hdy : ∀ x, sub.valueOf x (p + 1) - sub.valueOf x (q + 1) = 0 := fun x => by rw [valueOf_out hp, valueOf_out hq, hsame, sub_self]
  refine ⟨P, h1, h2, h3, h4, h2, add_nonneg (act_nonneg _ _) (act_nonneg _ _), le_rfl, ?_, ?_, ?_, ?_, ?_⟩
  · rcases hfree with hf | hf <;> rw [act_of_mem hf] <;> linarith [act_nonneg sub.freeVariables p, act_nonneg sub.freeVariables q]
  · linarith [act_le_one sub.freeVariables p, act_le_one sub.freeVariables q]
  · intro x hx
    obtain ⟨h6, -, -⟩ := h5 x (hx.trans h3) _ rfl
    rw [h6]
    simp only [ppdResGrad, FloatOps.sqrt, square, sq]
  · intro x hx hL
    obtain ⟨-, -, h8⟩ := h5 x (hx.trans h3) _ rfl
    rw [h8 rfl]
    simp only [Expr.variableIndices, ppdResGrad, FloatOps.sqrt, square, List.zipWith_cons_cons, List.zipWith_nil_left, List.sum_cons, List.sum_nil, hp', hq']
    simp only [← sq]
    have hL' := Real.sqrt_pos.2 hL
    have hsq := Real.sq_sqrt hL.le
    have hd0 := hdy x
    set L := √((sub.valueOf x p - sub.valueOf x q) ^ 2 + (sub.valueOf x (p + 1) - sub.valueOf x (q + 1)) ^ 2) with hLd
    rw [hd0] at hsq
    field_simp
    rw [hsq]
    ring
  · intro x δ κ hx hδ hL hκ
    obtain ⟨-, h7, -⟩ := h5 x (hx.trans h3) _ rfl
    have h8 := h7 δ κ (hδ.trans h3) hκ
    have c0 := h8 0 _ _ rfl rfl
    have c1 := h8 1 _ _ rfl rfl
    have c2 := h8 2 _ _ rfl rfl
    have c3 := h8 3 _ _ rfl rfl
    have hL' := Real.sqrt_pos.2 hL
    simp only [FloatOps.sqrt, square, hp', hq'] at c0 c1 c2 c3
    simp only [← sq] at c0 c1 c2 c3
    simp only [valueOf_add (hx.trans h3) (hδ.trans h3), c0, c1, c2, c3]
    set L := √((sub.valueOf x p - sub.valueOf x q) ^ 2 + (sub.valueOf x (p + 1) - sub.valueOf x (q + 1)) ^ 2) with hLd
    refine ⟨?_, ?_, by ring⟩
    · field_simp
      ring
    · rw [show sub.valueOf x (p + 1) + -κ * (0 * ((sub.valueOf x (p + 1) - sub.valueOf x (q + 1)) * (1 / L))) - (sub.valueOf x (q + 1) + -κ * (0 * (-(sub.valueOf x (p + 1) - sub.valueOf x (q + 1)) * (1 / L)))) =
        sub.valueOf x (p + 1) - sub.valueOf x (q + 1) by ring, hdy x]
      ring

/-- Two free points in the same place that shall coincide, and a fixed point at distance 3 that shall be at distance 1 from the first. All on the second axis. -/
noncomputable def axisOps : List (Op ℝ) :=
  [.createPoint 0 1, .createPoint 0 1, .createPoint 0 (-2), .fix .point 2, .createCon (.pointPointCoincidence 0 1), .createCon (.pointPointDistance 0 2 1)]

/-- A quarter turn about the origin. -/
noncomputable def axisTurn : List (Op ℝ) := [.updatePoint 0 1 0, .updatePoint 1 1 0, .updatePoint 2 (-2) 0]

theorem ord_single {ord : HashOrder} (hord : ord.Ok) (tag : List Nat) (a : Nat) : ord tag {a} = [a] := by
  obtain ⟨h1, h2⟩ := hord tag {a}
  simp only [Finset.mem_singleton] at h2
  match h : ord tag {a} with
  | [] => exact absurd ((h2 a).2 rfl) (by rw [h]; simp)
  | [b] => rw [(h2 b).1 (by rw [h]; simp)]
  | b :: b' :: l =>
    have e1 := (h2 b).1 (by rw [h]; simp)
    have e2 := (h2 b').1 (by rw [h]; simp)
    rw [h, e1, e2] at h1
    simp at h1

/-- What the three blocks of the figures on an axis do. -/
theorem axis_passes {c : Client ℝ} {p q a b : ℝ} (hv : c.sys.vars = [p, q, p, q, a, b])
    (he : c.sys.expressions = [.variableVariableEquality 0 2, .variableVariableEquality 1 3, .pointPointDistance 0 4 1]) (hsc : c.sys.scale = 1)
    (hcomp : c.sys.graph.components = [⟨{0, 1, 2}, {0, 1}⟩])
    (hb : okAnd (c.sys.freeVariables {0, 1, 2}) (fun free => okAnd (c.sys.equationGraph.findStronglyConnectedExpressions free) (fun l => l.map (fun b => (b.expressions, b.freeVariables)) =
      [([1], {1, 3}), ([2], {0}), ([0], {2})])) = true)
    {opt : Optimize ℝ} (hk : opt.KeepsSolutions) {ord : HashOrder} (hord : ord.Ok) {s' : System ℝ} (hs : c.sys.solve opt ord ⟨.levenbergMarquardt, .singlePass, false⟩ = .ok s') :
    ∃ x y x0 y0, opt .levenbergMarquardt (⟨[p, q, p, q, a, b], [.variableVariableEquality 0 2, .variableVariableEquality 1 3, .pointPointDistance 0 4 1], [2], [0]⟩ : Subsystem ℝ).problem [p] = .ok x ∧ x[0]? = some x0 ∧
      opt .levenbergMarquardt (⟨[x0, q, p, q, a, b], [.variableVariableEquality 0 2, .variableVariableEquality 1 3, .pointPointDistance 0 4 1], [0], [2]⟩ : Subsystem ℝ).problem [p] = .ok y ∧ y[0]? = some y0 ∧
      s' = { c.sys with vars := [x0, q, y0, q, a, b] } := by
  have hv' : c.sys.scaledVariables = [p, q, p, q, a, b] := by
    rw [System.scaledVariables, hsc, hv]
    simp
  have he' : c.sys.scaledExpressions = [.variableVariableEquality 0 2, .variableVariableEquality 1 3, .pointPointDistance 0 4 1] := by
    rw [System.scaledExpressions, hsc, he]
    show [Expr.variableVariableEquality 0 2, .variableVariableEquality 1 3, .pointPointDistance 0 4 (1 / 1 * (1 : ℝ))] = _
    norm_num
  unfold System.solve System.solveLoop at hs
  rw [hcomp, hv', he', hsc] at hs
  simp only [List.zipIdx_cons, List.zipIdx_nil, List.foldlM_cons, List.foldlM_nil, bind_eq_ok] at hs
  obtain ⟨st, ⟨st', hs1, hs2⟩, hs3⟩ := hs
  cases hs2
  cases hs3
  unfold solveComponent at hs1
  rw [if_neg (by simp)] at hs1
  simp only [bind_eq_ok] at hs1
  obtain ⟨free, h1, st0, h2, h3⟩ := hs1
  rw [still] at h2
  cases h2
  simp only [solveSinglePass, bind_eq_ok] at h3
  obtain ⟨blocks, h4, h5⟩ := h3
  simp only [okAnd, h1, h4, decide_eq_true_eq] at hb
  obtain ⟨b1, b2, b3, rfl⟩ : ∃ b1 b2 b3, blocks = [b1, b2, b3] := by
    have hlen := congrArg List.length hb
    simp only [List.length_map, List.length_cons, List.length_nil] at hlen
    match blocks, hlen with
    | [b1, b2, b3], _ => exact ⟨b1, b2, b3, rfl⟩
  simp only [List.map_cons, List.map_nil, List.cons.injEq, Prod.mk.injEq, and_true] at hb
  obtain ⟨⟨g1, g2⟩, ⟨g3, g4⟩, ⟨g5, g6⟩⟩ := hb
  simp only [List.zipIdx_cons, List.zipIdx_nil, List.foldlM_cons, List.foldlM_nil, bind_eq_ok, g1, g2, g3, g4, g5, g6, ord_single hord] at h5
  obtain ⟨st1, h6, st2, h7, st3, h8, h9⟩ := h5
  cases h9
  have hst1 : st1.vars = [p, q, p, q, a, b] ∧ st1.transformed = [p, q, p, q, a, b] := by
    simp only [solveBlock, bind_eq_ok] at h6
    obtain ⟨values, k1, values', k2, tr, k3, vars, k4, k5⟩ := h6
    cases k5
    have k6 := subsystem_rests_on hk (fun i hi e he r hr => ?_) k1 k2
    · subst k6
      rw [hv] at k4
      exact ⟨writeVars_same (zipIdx_values k1) (fun v x hx => by rw [hx, one_mul]) k4, writeTransformed_same (zipIdx_values k1) k3⟩
    · rw [List.mem_singleton] at hi
      subst hi
      cases he
      have hr : Except.ok (q - q) = Except.ok (ε := Panic) r := hr
      cases hr
      exact sub_self q
  simp only [solveBlock, bind_eq_ok, hst1.1, hst1.2] at h7
  obtain ⟨values, k1, x, k2, tr, k3, vars, k4, k5⟩ := h7
  have k1 : Except.ok [p] = Except.ok (ε := Panic) values := k1
  cases k1
  simp only [List.zipIdx_cons, List.zipIdx_nil, List.foldlM_cons, List.foldlM_nil, bind_eq_ok, writeTransformed, writeVars, idx_eq_ok, pure_eq_ok] at k3 k4
  obtain ⟨tr', ⟨x0, k6, k7⟩, k8⟩ := k3
  obtain ⟨vs', ⟨x1, k9, k10⟩, k11⟩ := k4
  rw [k6] at k9
  cases k9
  have k7 : Except.ok [x0, q, p, q, a, b] = Except.ok (ε := Panic) tr' := k7
  have k10 : Except.ok [1 * x0, q, p, q, a, b] = Except.ok (ε := Panic) vs' := k10
  cases k7
  cases k10
  cases k8
  cases k11
  cases k5
  simp only [solveBlock, bind_eq_ok] at h8
  obtain ⟨values, l1, y, l2, tr, l3, vars, l4, l5⟩ := h8
  have l1 : Except.ok [p] = Except.ok (ε := Panic) values := l1
  cases l1
  simp only [List.zipIdx_cons, List.zipIdx_nil, List.foldlM_cons, List.foldlM_nil, bind_eq_ok, writeTransformed, writeVars, idx_eq_ok, pure_eq_ok] at l3 l4
  obtain ⟨vs', ⟨y0, l9, l10⟩, l11⟩ := l4
  have l10 : Except.ok [1 * x0, q, 1 * y0, q, a, b] = Except.ok (ε := Panic) vs' := l10
  cases l10
  cases l11
  cases l5
  refine ⟨x, y, x0, y0, k2, k6, l2, l9, ?_⟩
  simp only [one_mul]

theorem axis_blocks {c : Client ℝ} (h : Reaches 0 axisOps c) : c.sys.graph.components = [⟨{0, 1, 2}, {0, 1}⟩] ∧
    okAnd (c.sys.freeVariables {0, 1, 2}) (fun free => okAnd (c.sys.equationGraph.findStronglyConnectedExpressions free) (fun l => l.map (fun b => (b.expressions, b.freeVariables)) =
      [([1], {1, 3}), ([2], {0}), ([0], {2})])) = true := by
  have h2 : okAnd ((Client.new ℝ 0).run axisOps) (fun c => c.sys.graph.components.map (fun k => (k.elements, k.constraints)) = [({0, 1, 2}, {0, 1})]) = true := by decide +kernel
  have h3 : okAnd ((Client.new ℝ 0).run axisOps) (fun c => okAnd (c.sys.freeVariables {0, 1, 2}) (fun free => okAnd (c.sys.equationGraph.findStronglyConnectedExpressions free)
    (fun l => l.map (fun b => (b.expressions, b.freeVariables)) = [([1], {1, 3}), ([2], {0}), ([0], {2})]))) = true := by decide +kernel
  rw [h.run] at h2 h3
  exact ⟨components_of_pairs (of_decide_eq_true h2), h3⟩

theorem axis_turned_blocks {c : Client ℝ} (h : Reaches 0 (axisOps ++ axisTurn) c) : c.sys.graph.components = [⟨{0, 1, 2}, {0, 1}⟩] ∧
    okAnd (c.sys.freeVariables {0, 1, 2}) (fun free => okAnd (c.sys.equationGraph.findStronglyConnectedExpressions free) (fun l => l.map (fun b => (b.expressions, b.freeVariables)) =
      [([1], {1, 3}), ([2], {0}), ([0], {2})])) = true := by
  have h2 : okAnd ((Client.new ℝ 0).run (axisOps ++ axisTurn)) (fun c => c.sys.graph.components.map (fun k => (k.elements, k.constraints)) = [({0, 1, 2}, {0, 1})]) = true := by decide +kernel
  have h3 : okAnd ((Client.new ℝ 0).run (axisOps ++ axisTurn)) (fun c => okAnd (c.sys.freeVariables {0, 1, 2}) (fun free => okAnd (c.sys.equationGraph.findStronglyConnectedExpressions free)
    (fun l => l.map (fun b => (b.expressions, b.freeVariables)) = [([1], {1, 3}), ([2], {0}), ([0], {2})]))) = true := by decide +kernel
  rw [h.run] at h2 h3
  exact ⟨components_of_pairs (of_decide_eq_true h2), h3⟩

theorem axis_scale {s : System ℝ} {p q a b : ℝ} (hv : s.vars = [p, q, p, q, a, b])
    (he : s.expressions = [.variableVariableEquality 0 2, .variableVariableEquality 1 3, .pointPointDistance 0 4 1]) (h : p * p + q * q + p * p + q * q + a * a + b * b = 6) : s.scale = 1 := by
  unfold System.scale
  rw [hv, he]
  show Real.sqrt ((0 + p * p + q * q + p * p + q * q + a * a + b * b + 1 * 1) / ((7 : ℕ) : ℝ)) = 1
  rw [show (0 + p * p + q * q + p * p + q * q + a * a + b * b + 1 * 1) / ((7 : ℕ) : ℝ) = 1 by push_cast; linarith, Real.sqrt_one]

theorem axis_ok {T : List ℝ} (hT : T.length = 6) {es free : List Nat} (hes : ∀ i ∈ es, i < 3) :
    (⟨T, [.variableVariableEquality 0 2, .variableVariableEquality 1 3, .pointPointDistance 0 4 1], es, free⟩ : Subsystem ℝ).Ok := by
  intro i hi
  have := hes i hi
  show ∃ e, [Expr.variableVariableEquality 0 2, .variableVariableEquality 1 3, .pointPointDistance 0 4 (1 : ℝ)][i]? = some e ∧ ∀ v ∈ e.variableIndices, v < T.length
  rw [hT]
  interval_cases i
  · exact ⟨_, rfl, by simp [Expr.variableIndices]⟩
  · exact ⟨_, rfl, by simp [Expr.variableIndices]⟩
  · exact ⟨_, rfl, by simp [Expr.variableIndices]⟩

/-- C74, the full claim fails for `Decomposer::SinglePass`: two points in the same place shall coincide, and the first shall be at distance 1 from a fixed point that is 3 away. If all are on the first axis, the
distance is attained. After a quarter turn of the figure `solve` leaves it as it is, with the distance at 3: the distance is solved for the first coordinate alone, and moving along the first axis does not
change it to first order. -/
theorem C74_singlePass_prefers_an_axis (cast : ℝ → Int) {sort : SortByKey} (hsort : Spec.Sorts sort) {ord : HashOrder} (hord : ord.Ok) :
    ∃ c c', Reaches 0 axisOps c ∧ Reaches 0 (axisOps ++ axisTurn) c' ∧
      (∀ i : Nat, ((Store.empty ℝ).run (axisOps ++ axisTurn)).elems[i]? = ((Store.empty ℝ).run axisOps).elems[i]?.map (Geo.mapElem (Geo.turn (-(Real.pi / 2)) false))) ∧
      ∃ s' k, (∀ fuel, k ≤ fuel → c.sys.solve (crateOptimize (qrLeastSquares sort (colamdOfStructure cast)) fuel) ord ⟨.levenbergMarquardt, .singlePass, false⟩ = .ok c.sys ∧
          c'.sys.solve (crateOptimize (qrLeastSquares sort (colamdOfStructure cast)) fuel) ord ⟨.levenbergMarquardt, .singlePass, false⟩ = .ok s') ∧
        c.sys.calculateResidual .pointPointDistance ⟨0, 1⟩ = .ok 2 ∧ ∃ r, s'.calculateResidual .pointPointDistance ⟨0, 1⟩ = .ok r ∧ |r| ≤ 1 / 10 ^ 4 := by
  obtain ⟨c, h⟩ := exists_reaches 0 axisOps (by
    simp [axisOps, Store.LegalRun, Store.Legal, Store.empty, Store.step, Store.IsPoint, Store.ConOk, Elem.kind]) (by simp [axisOps])
  obtain ⟨c', h'⟩ := exists_reaches 0 (axisOps ++ axisTurn) (by
    simp [axisOps, axisTurn, Store.LegalRun, Store.Legal, Store.empty, Store.step, Store.IsPoint, Store.ConOk, Elem.kind]) (by simp [axisOps, axisTurn])
  have hv : c.sys.vars = [0, 1, 0, 1, 0, -2] := by rw [h.crel.rel.vars]; rfl
  have hv' : c'.sys.vars = [1, 0, 1, 0, -2, 0] := by rw [h'.crel.rel.vars]; rfl
  have he : c.sys.expressions = [.variableVariableEquality 0 2, .variableVariableEquality 1 3, .pointPointDistance 0 4 1] := by rw [h.crel.rel.exprs]; rfl
  have he' : c'.sys.expressions = [.variableVariableEquality 0 2, .variableVariableEquality 1 3, .pointPointDistance 0 4 1] := by rw [h'.crel.rel.exprs]; rfl
  have hsc := axis_scale hv he (by norm_num)
  have hsc' := axis_scale hv' he' (by norm_num)
  obtain ⟨s, k, hk⟩ := C52_solve_returns_partial cast hsort h (by simp [axisOps]) hord (opts := ⟨.levenbergMarquardt, .singlePass, false⟩) (by simp) rfl
  obtain ⟨s', k', hk'⟩ := C52_solve_returns_partial cast hsort h' (by simp [axisOps, axisTurn]) hord (opts := ⟨.levenbergMarquardt, .singlePass, false⟩) (by simp) rfl
  obtain ⟨x, y, x0, y0, a1, a2, a3, a4, rfl⟩ := axis_passes hv he hsc (axis_blocks h).1 (axis_blocks h).2 (crateOptimize_keeps _ k) hord (hk k le_rfl)
  obtain ⟨x', y', x0', y0', b1, b2, -, -, rfl⟩ := axis_passes hv' he' hsc' (axis_turned_blocks h').1 (axis_turned_blocks h').2 (crateOptimize_keeps _ k') hord (hk' k' le_rfl)
  have hx : x = [0] := by
    have hok := axis_ok (T := [0, 1, 0, 1, 0, -2]) rfl (es := [2]) (free := [0]) (by simp)
    obtain ⟨P, p1, p2, p3, p4, p5⟩ := hok.single rfl rfl (by simp [Expr.variableIndices])
    have hfit : Spec.FitsWorkspace P.m P.n ((⟨[0, 1, 0, 1, 0, -2], [.variableVariableEquality 0 2, .variableVariableEquality 1 3, .pointPointDistance 0 4 1], [2], [0]⟩ : Subsystem ℝ).pattern.length + P.n) := by
      rw [p2, p3]
      exact h.fits (by simp [axisOps]) _ _ _ (by rw [he]; simp) (by rw [hv]; simp) (Subsystem.size_le _)
    refine C66_stationary_stays (by norm_num) ?_ (C66_lm_is_method p1 (qrColamd_exact cast hsort) hfit (by simp [p3]) a1)
    obtain ⟨-, -, p6⟩ := p5 [0] rfl _ rfl
    have p7 := p6 rfl
    simp only [Expr.variableIndices] at p7
    have e0 : (⟨[0, 1, 0, 1, 0, -2], [.variableVariableEquality 0 2, .variableVariableEquality 1 3, .pointPointDistance 0 4 1], [2], [0]⟩ : Subsystem ℝ).valueOf [0] 0 = 0 := by
      rw [valueOf_start (x := [0]) rfl]; rfl
    have e4 : (⟨[0, 1, 0, 1, 0, -2], [.variableVariableEquality 0 2, .variableVariableEquality 1 3, .pointPointDistance 0 4 1], [2], [0]⟩ : Subsystem ℝ).valueOf [0] 4 = 0 := by
      rw [valueOf_start (x := [0]) rfl]; rfl
    have p8 : ∑ c ∈ Finset.range P.n, P.jac [0] 0 c ^ 2 = 0 := by
      rw [p7]
      simp [ppdResGrad, e0, e4, act]
    intro j hj
    have p9 := (Finset.sum_eq_zero_iff_of_nonneg fun _ _ => sq_nonneg _).1 p8 j (Finset.mem_range.2 hj)
    rw [p2, Finset.sum_range_one, pow_eq_zero_iff (by norm_num)] at *
    rw [p9, zero_mul]
  subst hx
  cases a2
  have hy : y = [0] := by
    refine subsystem_rests_on (crateOptimize_keeps _ k) (fun i hi e he r hr => ?_) (values := [0]) rfl a3
    rw [List.mem_singleton] at hi
    subst hi
    cases he
    have hr : Except.ok ((0 : ℝ) - 0) = Except.ok (ε := Panic) r := hr
    cases hr
    exact sub_self 0
  subst hy
  cases a4
  have hsame : ({ c.sys with vars := [0, 1, 0, 1, 0, -2] } : System ℝ) = c.sys := by rw [← hv]
  rw [hsame] at hk
  refine ⟨c, c', h, h', fun i => ?_, _, max k k', fun fuel hf => ⟨hk fuel (le_trans (le_max_left ..) hf), hk' fuel (le_trans (le_max_right ..) hf)⟩, ?_, ?_⟩
  · have h1 : ((Store.empty ℝ).run (axisOps ++ axisTurn)).elems = [.point 1 0, .point 1 0, .point (-2) 0] := rfl
    have h2 : ((Store.empty ℝ).run axisOps).elems = [.point 0 1, .point 0 1, .point 0 (-2)] := rfl
    rw [h1, h2]
    match i with
    | 0 => simp [Geo.mapElem, turn_coords]
    | 1 => simp [Geo.mapElem, turn_coords]
    | 2 => simp [Geo.mapElem, turn_coords]
    | i + 3 => simp
  · have key : (do let c ← (Client.new ℝ 0).run axisOps
                   c.sys.calculateResidual .pointPointDistance ⟨0, 1⟩ : R _) = .ok (ppdResGrad (0 : ℝ) 1 0 (-2) 1).1 := rfl
    rw [h.run, ok_bind] at key
    rw [key]
    have e1 : √((0 - 0) * (0 - 0) + (1 - -2) * (1 - -2) : ℝ) = 3 := by
      rw [show ((0 - 0) * (0 - 0) + (1 - -2) * (1 - -2) : ℝ) = 3 ^ 2 by norm_num]
      exact Real.sqrt_sq (by norm_num)
    simp only [ppdResGrad, FloatOps.sqrt, square, e1]
    norm_num
  · have hok := axis_ok (T := [1, 0, 1, 0, -2, 0]) rfl (es := [2]) (free := [0]) (by simp)
    obtain ⟨P, p1, p2, p3, p4, p5⟩ := hok.axis_gap rfl rfl (by simp) (by simp) (by simp) rfl (.inl (by simp))
    have hfit : Spec.FitsWorkspace P.m P.n ((⟨[1, 0, 1, 0, -2, 0], [.variableVariableEquality 0 2, .variableVariableEquality 1 3, .pointPointDistance 0 4 1], [2], [0]⟩ : Subsystem ℝ).pattern.length + P.n) := by
      rw [p2, p3]
      exact h'.fits (by simp [axisOps, axisTurn]) _ _ _ (by rw [he']; simp) (by rw [hv']; simp) (Subsystem.size_le _)
    have hx1 : ([1] : List ℝ).length = P.n := by rw [p3]; rfl
    have hrun := C66_lm_is_method p1 (qrColamd_exact cast hsort) hfit hx1 b1
    have e : ∀ v, (⟨[1, 0, 1, 0, -2, 0], [.variableVariableEquality 0 2, .variableVariableEquality 1 3, .pointPointDistance 0 4 1], [2], [0]⟩ : Subsystem ℝ).valueOf [1] v = [1, 0, 1, 0, -2, 0].getD v 0 :=
      valueOf_start rfl
    have e3 : √(((1 : ℝ) - -2) ^ 2 + (0 - 0) ^ 2) = 3 := by
      rw [show (((1 : ℝ) - -2) ^ 2 + (0 - 0) ^ 2) = 3 ^ 2 by norm_num]
      exact Real.sqrt_sq (by norm_num)
    obtain ⟨q1, q2⟩ := p5.run ⟨hx1, by simp only [e]; norm_num, by norm_num⟩ hrun (by
      rw [Fitting.cost, p5.res _ hx1]
      simp only [e, squares, List.map_cons, List.map_nil, List.sum_cons, List.sum_nil, List.getD_cons_zero, List.getD_cons_succ, e3]
      norm_num)
    have hlen : x'.length = 1 := q1.1.trans p3
    obtain ⟨x1, rfl⟩ := List.length_eq_one_iff.1 hlen
    obtain rfl : x1 = x0' := by simpa using b2
    have key : (do let c ← (Client.new ℝ 0).run (axisOps ++ axisTurn)
                   ({ c.sys with vars := [x1, 0, y0', 0, -2, 0] } : System ℝ).calculateResidual .pointPointDistance ⟨0, 1⟩ : R _) = .ok (ppdResGrad x1 0 (-2) 0 1).1 := rfl
    rw [h'.run, ok_bind] at key
    refine ⟨_, key, ?_⟩
    have hval : P.res [x1] = [(ppdResGrad x1 0 (-2) 0 1).1] := by
      have p6 := p4 [x1] rfl
      have p7 : (⟨[1, 0, 1, 0, -2, 0], [.variableVariableEquality 0 2, .variableVariableEquality 1 3, .pointPointDistance 0 4 1], [2], [0]⟩ : Subsystem ℝ).calculateResiduals [x1] =
        .ok [(ppdResGrad x1 0 (-2) 0 1).1] := rfl
      rw [p7] at p6
      exact (Except.ok.inj p6).symm
    rw [Fitting.cost, hval] at q2
    simp only [squares, List.map_cons, List.map_nil, List.sum_cons, List.sum_nil, add_zero] at q2
    exact abs_le_of_sq_le_sq (q2.trans (show (1 : ℝ) / 10 ^ 8 ≤ (1 / 10 ^ 4) ^ 2 by norm_num)) (by positivity)

end Fiksi
