import Verif.Props.AxisPass
/-!
# C75, a case: with `SinglePass` the order of the constraints matters
-/
namespace Fiksi
open Spec

/-- One equation between two free variables: the steps go along the difference, and the sum stays. -/
theorem Subsystem.Ok.pair_contracts {sub : Subsystem ℝ} (hok : sub.Ok) {id p q : Nat} (hids : sub.expressions = [id]) (he : sub.allExpressions[id]? = some (.variableVariableEquality p q)) (hpq : p ≠ q)
    (hp : p ∈ sub.freeVariables) (hq : q ∈ sub.freeVariables) (S : ℝ) :
    ∃ P : Fitting, sub.problem.Computes P sub.pattern ∧ P.m = 1 ∧ P.n = sub.freeVariables.length ∧ (∀ x, x.length = P.n → P.cost x = (sub.valueOf x p - sub.valueOf x q) ^ 2) ∧
      P.Contracts (fun x => x.length = P.n ∧ sub.valueOf x p + sub.valueOf x q = S) (8 / 25) := by
  obtain ⟨P, h1, h2, h3, h4, h5⟩ := hok.single hids he (by simp [Expr.variableIndices, hpq])
  have hres : ∀ x, x.length = P.n → P.res x = [sub.valueOf x q - sub.valueOf x p] := fun x hx => (h5 x (hx.trans h3) _ rfl).1
  have hcost : ∀ x, x.length = P.n → P.cost x = (sub.valueOf x p - sub.valueOf x q) ^ 2 := by
    intro x hx
    rw [Fitting.cost, hres x hx]
    simp only [squares, List.map_cons, List.map_nil, List.sum_cons, List.sum_nil]
    ring
  have hnorm : ∀ x, x.length = P.n → ∑ c ∈ Finset.range P.n, P.jac x 0 c ^ 2 = 2 := by
    intro x hx
    rw [(h5 x (hx.trans h3) _ rfl).2.2 rfl]
    show (List.zipWith (fun v g => act sub.freeVariables v * g ^ 2) [p, q] [-1, 1]).sum = 2
    simp only [List.zipWith_cons_cons, List.zipWith_nil_left, List.sum_cons, List.sum_nil, act_of_mem hp, act_of_mem hq]
    norm_num
  have key : ∀ {x δ : List ℝ} {lam : ℝ}, x.length = P.n → 0 < lam → P.IsStep x lam δ →
      (Fitting.add x δ).length = P.n ∧ sub.valueOf (Fitting.add x δ) p = sub.valueOf x p - (sub.valueOf x p - sub.valueOf x q) / (2 + lam) ∧
      sub.valueOf (Fitting.add x δ) q = sub.valueOf x q + (sub.valueOf x p - sub.valueOf x q) / (2 + lam) ∧
      squares δ = 2 * ((sub.valueOf x p - sub.valueOf x q) / (2 + lam)) ^ 2 := by
    intro x δ lam hx hl hs
    obtain ⟨h6, h7⟩ := hs.single h2 hl
    rw [hnorm x hx, hres x hx, List.getD_cons_zero] at h6 h7
    have h8 := (h5 x (hx.trans h3) _ rfl).2.1 δ _ (hs.1.trans h3) h6
    have c0 := h8 0 p (-1) rfl rfl
    have c1 := h8 1 q 1 rfl rfl
    rw [act_of_mem hp] at c0
    rw [act_of_mem hq] at c1
    refine ⟨by simp [Fitting.add, hx, hs.1], ?_, ?_, by rw [h7]; ring⟩
    · rw [valueOf_add (hx.trans h3) (hs.1.trans h3), c0]; ring
    · rw [valueOf_add (hx.trans h3) (hs.1.trans h3), c1]; ring
  refine ⟨P, h1, h2, h3, hcost, fun hx hl _ hs => ?_, fun {x δ lam} hx hl hl' hs => ?_, fun {x δ lam} hx hl hl' hs => ?_⟩
  · obtain ⟨k1, k2, k3, -⟩ := key hx.1 hl hs
    refine ⟨k1, ?_⟩
    rw [k2, k3, ← hx.2]
    ring
  · obtain ⟨k1, k2, k3, -⟩ := key hx.1 hl hs
    rw [hcost _ k1, hcost _ hx.1, k2, k3]
    set d := sub.valueOf x p - sub.valueOf x q with hd
    have e : sub.valueOf x p - d / (2 + lam) - (sub.valueOf x q + d / (2 + lam)) = lam / (2 + lam) * d := by
      have : 2 + lam ≠ 0 := by linarith
      field_simp
      rw [hd]
      ring
    have e' : lam / (2 + lam) ≤ 1 / 3 := by
      rw [div_le_div_iff₀ (by linarith) (by norm_num)]
      linarith
    have e0 : 0 ≤ lam / (2 + lam) := div_nonneg hl.le (by linarith)
    rw [e, mul_pow]
    nlinarith [sq_nonneg d, mul_nonneg e0 (sub_nonneg.2 e')]
  · obtain ⟨k1, k2, k3, k4⟩ := key hx.1 hl hs
    rw [hcost _ hx.1, k4, div_pow, ← mul_div_assoc, le_div_iff₀ (by positivity)]
    have : 8 / 25 * (2 + lam) ^ 2 ≤ 2 := by nlinarith
    nlinarith [sq_nonneg (sub.valueOf x p - sub.valueOf x q)]

/-- Two points in the same place, and a third 3 away. -/
noncomputable def hubOps : List (Op ℝ) :=
  [.createPoint 1 0, .createPoint 1 0, .createPoint (-2) 0, .createCon (.pointPointCoincidence 1 0), .createCon (.pointPointCoincidence 0 2)]

/-- The same figure, with the constraints in the other order. -/
noncomputable def hubOps' : List (Op ℝ) :=
  [.createPoint 1 0, .createPoint 1 0, .createPoint (-2) 0, .createCon (.pointPointCoincidence 0 2), .createCon (.pointPointCoincidence 1 0)]

theorem hub_same : ((Store.empty ℝ).run hubOps).SameFigure id (Equiv.refl Nat) ((Store.empty ℝ).run hubOps') := by
  have h1 : ((Store.empty ℝ).run hubOps).cons = ([(1, 0), (0, 2)] : List (Nat × Nat)).map fun p => .pointPointCoincidence p.1 p.2 := rfl
  have h2 : ((Store.empty ℝ).run hubOps').cons = ([(0, 2), (1, 0)] : List (Nat × Nat)).map fun p => .pointPointCoincidence p.1 p.2 := rfl
  have hren : ∀ con : Spec.Con ℝ, con.rename (Equiv.refl Nat) = con := by intro con; cases con <;> rfl
  have he : ∀ e : Spec.Elem ℝ, (Geo.mapElem id e).rename (Equiv.refl Nat) = e := by intro e; cases e <;> rfl
  refine ⟨fun i => ?_, fun i => by simp [hubOps, hubOps', Store.run, Store.empty, Store.step], _, ?_, List.forall₂_same.2 fun con _ => by rw [hren]⟩
  · have h3 : ((Store.empty ℝ).run hubOps').elems = ((Store.empty ℝ).run hubOps).elems := rfl
    simp only [he, Option.map_id']
    rw [h3]
    rfl
  · rw [h1, h2]
    exact List.Perm.map _ (by decide)

/-- The four blocks of a component, in order. -/
theorem four_blocks {c : Client ℝ} {V : List ℝ} {E : List (Expr ℝ)} (hv : c.sys.scaledVariables = V) (hv' : c.sys.vars = V) (he : c.sys.scaledExpressions = E) (hsc : c.sys.scale = 1) {elements constraints : Finset Nat}
    (hne : elements ≠ ∅) (hcomp : c.sys.graph.components = [⟨elements, constraints⟩]) {e1 e2 e3 e4 : List Nat} {f1 f2 f3 f4 : Finset Nat}
    (hb : okAnd (c.sys.freeVariables elements) (fun free => okAnd (c.sys.equationGraph.findStronglyConnectedExpressions free) (fun l => l.map (fun b => (b.expressions, b.freeVariables)) =
      [(e1, f1), (e2, f2), (e3, f3), (e4, f4)])) = true)
    {opt : Optimize ℝ} {ord : HashOrder} {s' : System ℝ} (hs : c.sys.solve opt ord ⟨.levenbergMarquardt, .singlePass, false⟩ = .ok s') :
    ∃ st1 st2 st3 st4, solveBlock opt ⟨.levenbergMarquardt, .singlePass, false⟩ 1 E (ord [0, 0, 0] f1) e1 ⟨V, V, 42, []⟩ = .ok st1 ∧
      solveBlock opt ⟨.levenbergMarquardt, .singlePass, false⟩ 1 E (ord [0, 0, 1] f2) e2 st1 = .ok st2 ∧
      solveBlock opt ⟨.levenbergMarquardt, .singlePass, false⟩ 1 E (ord [0, 0, 2] f3) e3 st2 = .ok st3 ∧
      solveBlock opt ⟨.levenbergMarquardt, .singlePass, false⟩ 1 E (ord [0, 0, 3] f4) e4 st3 = .ok st4 ∧ s' = { c.sys with vars := st4.vars } := by
  unfold System.solve System.solveLoop at hs
  rw [hcomp, hv, he, hsc, hv'] at hs
  simp only [List.zipIdx_cons, List.zipIdx_nil, List.foldlM_cons, List.foldlM_nil, bind_eq_ok] at hs
  obtain ⟨st, ⟨st', hs1, hs2⟩, hs3⟩ := hs
  cases hs2
  cases hs3
  unfold solveComponent at hs1
  rw [if_neg hne] at hs1
  simp only [bind_eq_ok] at hs1
  obtain ⟨free, h1, st0, h2, h3⟩ := hs1
  rw [still] at h2
  cases h2
  simp only [solveSinglePass, bind_eq_ok] at h3
  obtain ⟨blocks, h4, h5⟩ := h3
  simp only [okAnd, h1, h4, decide_eq_true_eq] at hb
  obtain ⟨b1, b2, b3, b4, rfl⟩ : ∃ b1 b2 b3 b4, blocks = [b1, b2, b3, b4] := by
    have hlen := congrArg List.length hb
    simp only [List.length_map, List.length_cons, List.length_nil] at hlen
    match blocks, hlen with
    | [b1, b2, b3, b4], _ => exact ⟨b1, b2, b3, b4, rfl⟩
  simp only [List.map_cons, List.map_nil, List.cons.injEq, Prod.mk.injEq, and_true] at hb
  obtain ⟨⟨g1, g2⟩, ⟨g3, g4⟩, ⟨g5, g6⟩, ⟨g7, g8⟩⟩ := hb
  simp only [List.zipIdx_cons, List.zipIdx_nil, List.foldlM_cons, List.foldlM_nil, bind_eq_ok, g1, g2, g3, g4, g5, g6, g7, g8] at h5
  obtain ⟨st1, h6, st2, h7, st3, h8, st4, h9, h10⟩ := h5
  cases h10
  exact ⟨st1, st2, st3, _, h6, h7, h8, h9, rfl⟩

/-- A block of satisfied equations is left alone. -/
theorem block_rests {opt : Optimize ℝ} (hk : opt.KeepsSolutions) {opts : SolvingOptions} {E : List (Expr ℝ)} {free es : List Nat} {st st' : SolveState ℝ} {V : List ℝ} (hv : st.vars = V) (ht : st.transformed = V)
    (hz : ∀ i ∈ es, ∀ e, E[i]? = some e → ∀ r, e.calculateResidual (identityMap V) = .ok r → r = 0) (h : solveBlock opt opts 1 E free es st = .ok st') : st'.vars = V ∧ st'.transformed = V := by
  subst hv
  simp only [solveBlock, bind_eq_ok] at h
  obtain ⟨values, k1, values', k2, tr, k3, vars, k4, k5⟩ := h
  cases k5
  rw [ht] at k1 k2 k3
  have k6 := subsystem_rests_on hk hz k1 k2
  subst k6
  exact ⟨writeVars_same (zipIdx_values k1) (fun v x hx => by rw [hx, one_mul]) k4, writeTransformed_same (zipIdx_values k1) k3⟩

/-- What a block with one equation between two free variables does. -/
theorem pair_block (cast : ℝ → Int) {sort : SortByKey} (hsort : Spec.Sorts sort) {k : Nat} {opts : SolvingOptions} (ho : opts.optimizer = .levenbergMarquardt) {E : List (Expr ℝ)} {free : List Nat} (hnd : free.Nodup)
    {id p q : Nat} {st st' : SolveState ℝ} (hok : (⟨st.transformed, E, [id], free⟩ : Subsystem ℝ).Ok) (he : E[id]? = some (.variableVariableEquality p q)) (hpq : p ≠ q) (hp : p ∈ free) (hq : q ∈ free)
    (hfit : ∀ len, len ≤ 8 + free.length → Spec.FitsWorkspace 1 free.length len) (hc : (st.transformed.getD p 0 - st.transformed.getD q 0) ^ 2 ≤ 10 ^ 80)
    (h : solveBlock (crateOptimize (qrLeastSquares sort (colamdOfStructure cast)) k) opts 1 E free [id] st = .ok st') :
    ∃ x y, st'.vars[p]? = some x ∧ st'.vars[q]? = some y ∧ x + y = st.transformed.getD p 0 + st.transformed.getD q 0 ∧ (x - y) ^ 2 ≤ 1 / 10 ^ 8 := by
  simp only [solveBlock, bind_eq_ok, ho] at h
  obtain ⟨values, k1, values', k2, tr, k3, vars, k4, k5⟩ := h
  cases k5
  obtain ⟨P, h1, h2, h3, h4, h5⟩ := hok.pair_contracts rfl he hpq hp hq (st.transformed.getD p 0 + st.transformed.getD q 0)
  have e := valueOf_start (exprs := E) (es := [id]) k1
  have hlen : values.length = P.n := by rw [h3]; exact (mapM_forall k1).length_eq.symm
  have hrun := C66_lm_is_method h1 (qrColamd_exact cast hsort) (by
    rw [h2, h3]
    exact hfit _ (Subsystem.size_le (⟨st.transformed, E, [id], free⟩ : Subsystem ℝ))) hlen k2
  obtain ⟨h6, h7⟩ := h5.run (by norm_num) (by norm_num) le_rfl ⟨hlen, by rw [e, e]⟩ hrun
  rw [h4 _ h6.1, h4 _ hlen, e, e] at h7
  have h8 : (Subsystem.valueOf ⟨st.transformed, E, [id], free⟩ values' p - Subsystem.valueOf ⟨st.transformed, E, [id], free⟩ values' q) ^ 2 ≤ 1 / 10 ^ 8 := by
    refine h7.trans (max_le (max_le le_rfl (by norm_num)) ?_)
    rw [div_le_iff₀ (by positivity)]
    refine hc.trans ?_
    norm_num
  have hw : ∀ v ∈ free, vars[v]? = some (Subsystem.valueOf ⟨st.transformed, E, [id], free⟩ values' v) := by
    intro v hv
    obtain ⟨j, hj⟩ := List.mem_iff_getElem?.1 hv
    obtain ⟨y, h9, h10⟩ := writeVars_values (zipIdx_fst_nodup hnd) k4 (v, j) (List.mem_zipIdx_iff_getElem?.2 hj)
    simp only [one_mul] at h9 h10
    rw [h10]
    congr 1
    have h11 : free.idxOf? v = some j := by
      obtain ⟨hlt, rfl⟩ := List.getElem?_eq_some_iff.1 hj
      refine List.idxOf?_eq_some_iff.2 ⟨hlt, rfl, fun i hi hc => ?_⟩
      have := (List.Nodup.getElem_inj_iff hnd).1 hc
      omega
    unfold Subsystem.valueOf
    simp only [h11]
    rw [List.getD_eq_getElem?_getD, h9, Option.getD_some]
  exact ⟨_, _, hw p hp, hw q hq, h6.2, h8⟩

theorem hub_blocks {c : Client ℝ} (h : Reaches 0 hubOps c) : c.sys.graph.components = [⟨{0, 1, 2}, {0, 1}⟩] ∧
    okAnd (c.sys.freeVariables {0, 1, 2}) (fun free => okAnd (c.sys.equationGraph.findStronglyConnectedExpressions free) (fun l => l.map (fun b => (b.expressions, b.freeVariables)) =
      [([1], {1, 3}), ([3], {5}), ([0], {0, 2}), ([2], {4})])) = true := by
  have h2 : okAnd ((Client.new ℝ 0).run hubOps) (fun c => c.sys.graph.components.map (fun k => (k.elements, k.constraints)) = [({0, 1, 2}, {0, 1})]) = true := by decide +kernel
  have h3 : okAnd ((Client.new ℝ 0).run hubOps) (fun c => okAnd (c.sys.freeVariables {0, 1, 2}) (fun free => okAnd (c.sys.equationGraph.findStronglyConnectedExpressions free)
    (fun l => l.map (fun b => (b.expressions, b.freeVariables)) = [([1], {1, 3}), ([3], {5}), ([0], {0, 2}), ([2], {4})]))) = true := by decide +kernel
  rw [h.run] at h2 h3
  exact ⟨components_of_pairs (of_decide_eq_true h2), h3⟩

theorem hub_blocks' {c : Client ℝ} (h : Reaches 0 hubOps' c) : c.sys.graph.components = [⟨{0, 1, 2}, {0, 1}⟩] ∧
    okAnd (c.sys.freeVariables {0, 1, 2}) (fun free => okAnd (c.sys.equationGraph.findStronglyConnectedExpressions free) (fun l => l.map (fun b => (b.expressions, b.freeVariables)) =
      [([1], {1, 5}), ([3], {3}), ([0], {0, 4}), ([2], {2})])) = true := by
  have h2 : okAnd ((Client.new ℝ 0).run hubOps') (fun c => c.sys.graph.components.map (fun k => (k.elements, k.constraints)) = [({0, 1, 2}, {0, 1})]) = true := by decide +kernel
  have h3 : okAnd ((Client.new ℝ 0).run hubOps') (fun c => okAnd (c.sys.freeVariables {0, 1, 2}) (fun free => okAnd (c.sys.equationGraph.findStronglyConnectedExpressions free)
    (fun l => l.map (fun b => (b.expressions, b.freeVariables)) = [([1], {1, 5}), ([3], {3}), ([0], {0, 4}), ([2], {2})]))) = true := by decide +kernel
  rw [h.run] at h2 h3
  exact ⟨components_of_pairs (of_decide_eq_true h2), h3⟩

theorem hub_scale {s : System ℝ} (hv : s.vars = [1, 0, 1, 0, -2, 0]) {a b d e a' b' d' e' : Nat}
    (he : s.expressions = [.variableVariableEquality a a', .variableVariableEquality b b', .variableVariableEquality d d', .variableVariableEquality e e']) : s.scale = 1 := by
  unfold System.scale
  rw [hv, he]
  show Real.sqrt ((0 + 1 * 1 + 0 * 0 + 1 * 1 + 0 * 0 + (-2) * (-2) + 0 * 0) / ((6 : ℕ) : ℝ)) = 1
  rw [show ((0 + 1 * 1 + 0 * 0 + 1 * 1 + 0 * 0 + (-2) * (-2) + 0 * 0) / ((6 : ℕ) : ℝ) : ℝ) = 1 by norm_num, Real.sqrt_one]

theorem hub_scaled {s : System ℝ} (hsc : s.scale = 1) {a b d e a' b' d' e' : Nat}
    (he : s.expressions = [.variableVariableEquality a a', .variableVariableEquality b b', .variableVariableEquality d d', .variableVariableEquality e e']) :
    s.scaledVariables = s.vars ∧ s.scaledExpressions = s.expressions := by
  constructor
  · rw [System.scaledVariables, hsc]
    simp
  · rw [System.scaledExpressions, hsc, he]
    rfl

theorem vve_zero {T : List ℝ} {p q : Nat} {r : ℝ} (hr : (Expr.variableVariableEquality p q).calculateResidual (identityMap T) = .ok r) (h : T[p]? = T[q]?) : r = 0 := by
  unfold Expr.calculateResidual at hr
  simp only [Expr.variableIndices, List.mapM_cons, List.mapM_nil, identityMap, idx, ← h] at hr
  cases hp : T[p]? with
  | none => rw [hp] at hr; cases hr
  | some a =>
    rw [hp] at hr
    cases hr
    exact sub_self a

/-- C75, the full claim fails for `Decomposer::SinglePass`: two points in the same place and a third one, which shall all coincide. If the coincidence of the first two is created first, they stay and the third
one moves; if the other coincidence is created first, all three move (the first one from `1` to less than `-2/5`). -/
theorem C75_singlePass_order_matters (cast : ℝ → Int) {sort : SortByKey} (hsort : Spec.Sorts sort) {ord : HashOrder} (hord : ord.Ok) :
    ((Store.empty ℝ).run hubOps).SameFigure id (Equiv.refl Nat) ((Store.empty ℝ).run hubOps') ∧
    NeverJoins ((Store.empty ℝ).run hubOps).arguments ∧ NeverJoins ((Store.empty ℝ).run hubOps').arguments ∧
    ∃ c c', Reaches 0 hubOps c ∧ Reaches 0 hubOps' c' ∧ ∃ s s' k,
      (∀ fuel, k ≤ fuel → c.sys.solve (crateOptimize (qrLeastSquares sort (colamdOfStructure cast)) fuel) ord ⟨.levenbergMarquardt, .singlePass, false⟩ = .ok s ∧
        c'.sys.solve (crateOptimize (qrLeastSquares sort (colamdOfStructure cast)) fuel) ord ⟨.levenbergMarquardt, .singlePass, false⟩ = .ok s') ∧
      s.getValue .point ⟨0, 0⟩ = .ok (.point 1 0) ∧ ∃ x, s'.getValue .point ⟨0, 0⟩ = .ok (.point x 0) ∧ x ≤ -2 / 5 := by
  refine ⟨hub_same, neverJoins_two _ _, neverJoins_two _ _, ?_⟩
  obtain ⟨c, h⟩ := exists_reaches 0 hubOps (by
    simp [hubOps, Store.LegalRun, Store.Legal, Store.empty, Store.step, Store.IsPoint, Store.ConOk]) (by simp [hubOps])
  obtain ⟨c', h'⟩ := exists_reaches 0 hubOps' (by
    simp [hubOps', Store.LegalRun, Store.Legal, Store.empty, Store.step, Store.IsPoint, Store.ConOk]) (by simp [hubOps'])
  have hv : c.sys.vars = [1, 0, 1, 0, -2, 0] := by rw [h.crel.rel.vars]; rfl
  have hv' : c'.sys.vars = [1, 0, 1, 0, -2, 0] := by rw [h'.crel.rel.vars]; rfl
  have he : c.sys.expressions = [.variableVariableEquality 2 0, .variableVariableEquality 3 1, .variableVariableEquality 0 4, .variableVariableEquality 1 5] := by rw [h.crel.rel.exprs]; rfl
  have he' : c'.sys.expressions = [.variableVariableEquality 0 4, .variableVariableEquality 1 5, .variableVariableEquality 2 0, .variableVariableEquality 3 1] := by rw [h'.crel.rel.exprs]; rfl
  have hsc := hub_scale hv he
  have hsc' := hub_scale hv' he'
  obtain ⟨hw, hx⟩ := hub_scaled hsc he
  obtain ⟨hw', hx'⟩ := hub_scaled hsc' he'
  rw [hv] at hw
  rw [hv'] at hw'
  rw [he] at hx
  rw [he'] at hx'
  obtain ⟨s, k, hk⟩ := C52_solve_returns_partial cast hsort h (by simp [hubOps]) hord (opts := ⟨.levenbergMarquardt, .singlePass, false⟩) (by simp) rfl
  obtain ⟨s', k', hk'⟩ := C52_solve_returns_partial cast hsort h' (by simp [hubOps']) hord (opts := ⟨.levenbergMarquardt, .singlePass, false⟩) (by simp) rfl
  obtain ⟨st1, st2, st3, st4, a1, a2, a3, a4, hs⟩ := four_blocks hw hv hx hsc (by simp) (hub_blocks h).1 (hub_blocks h).2 (hk k le_rfl)
  obtain ⟨tt1, tt2, tt3, tt4, b1, b2, b3, b4, hs'⟩ := four_blocks hw' hv' hx' hsc' (by simp) (hub_blocks' h').1 (hub_blocks' h').2 (hk' k' le_rfl)
  have hmem : ∀ tag f v, v ∈ ord tag f ↔ v ∈ f := fun tag f => (hord tag f).2
  refine ⟨c, c', h, h', s, s', max k k', fun fuel hf => ⟨hk fuel (le_trans (le_max_left ..) hf), hk' fuel (le_trans (le_max_right ..) hf)⟩, ?_, ?_⟩
  · obtain ⟨p1, q1⟩ := block_rests (crateOptimize_keeps _ k) rfl rfl (fun i hi e he r hr => by
      rw [List.mem_singleton] at hi
      subst hi
      cases he
      exact vve_zero hr rfl) a1
    obtain ⟨p2, q2⟩ := block_rests (crateOptimize_keeps _ k) p1 q1 (fun i hi e he r hr => by
      rw [List.mem_singleton] at hi
      subst hi
      cases he
      exact vve_zero hr rfl) a2
    obtain ⟨p3, q3⟩ := block_rests (crateOptimize_keeps _ k) p2 q2 (fun i hi e he r hr => by
      rw [List.mem_singleton] at hi
      subst hi
      cases he
      exact vve_zero hr rfl) a3
    obtain ⟨l4, f4⟩ := (solveBlock_spec a4).1.vars
    have e0 := f4 0 (by show _ ∉ ord _ _; rw [hmem]; simp)
    have e1 := f4 1 (by show _ ∉ ord _ _; rw [hmem]; simp)
    rw [p3] at l4 e0 e1
    match hst : st4.vars, l4 with
    | [x0, x1, x2, x3, x4, x5], _ =>
      rw [hst] at e0 e1
      cases e0
      cases e1
      rw [hs, hst]
      have key : (do let c ← (Client.new ℝ 0).run hubOps
                     ({ c.sys with vars := [1, 0, x2, x3, x4, x5] } : System ℝ).getValue .point ⟨0, 0⟩ : R _) = .ok (.point 1 0) := rfl
      rwa [h.run, ok_bind] at key
  · obtain ⟨p1, q1⟩ := block_rests (crateOptimize_keeps _ k') rfl rfl (fun i hi e he r hr => by
      rw [List.mem_singleton] at hi
      subst hi
      cases he
      exact vve_zero hr rfl) b1
    obtain ⟨p2, q2⟩ := block_rests (crateOptimize_keeps _ k') p1 q1 (fun i hi e he r hr => by
      rw [List.mem_singleton] at hi
      subst hi
      cases he
      exact vve_zero hr rfl) b2
    have hlen2 : (ord [0, 0, 2] {0, 4}).length = 2 := by
      have := List.toFinset_card_of_nodup (hord [0, 0, 2] {0, 4}).1
      rw [show (ord [0, 0, 2] {0, 4}).toFinset = {0, 4} by ext v; rw [List.mem_toFinset, hmem]] at this
      rw [← this]
      rfl
    obtain ⟨x, y, r1, r2, r3, r4⟩ := pair_block cast hsort rfl (hord [0, 0, 2] {0, 4}).1 (p := 0) (q := 4) (st := tt2) (fun i hi => by
        simp only [List.mem_singleton] at hi
        subst hi
        exact ⟨_, rfl, by rw [q2]; simp [Expr.variableIndices]⟩) rfl (by norm_num) (by rw [hmem]; simp) (by rw [hmem]; simp)
      (fun len hl => h'.fits (by simp [hubOps']) _ _ _ (by rw [he']; simp) (by rw [hv', hlen2]; simp) (by rw [hlen2] at hl ⊢; omega)) (by rw [q2]; norm_num) b3
    rw [q2] at r3
    obtain ⟨l3, f3⟩ := (solveBlock_spec b3).1.vars
    obtain ⟨l4, f4⟩ := (solveBlock_spec b4).1.vars
    have e0 := f4 0 (by show _ ∉ ord _ _; rw [hmem]; simp)
    have e1 := (f4 1 (by show _ ∉ ord _ _; rw [hmem]; simp)).trans (f3 1 (by show _ ∉ ord _ _; rw [hmem]; simp))
    rw [r1] at e0
    rw [p2] at e1 l3
    rw [l3] at l4
    match hst : tt4.vars, l4 with
    | [x0, x1, x2, x3, x4, x5], _ =>
      rw [hst] at e0 e1
      cases e0
      cases e1
      rw [hs', hst]
      have key : (do let c ← (Client.new ℝ 0).run hubOps'
                     ({ c.sys with vars := [x, 0, x2, x3, x4, x5] } : System ℝ).getValue .point ⟨0, 0⟩ : R _) = .ok (.point x 0) := rfl
      rw [h'.run, ok_bind] at key
      refine ⟨x, key, ?_⟩
      have e2 : x + y = 1 + -2 := r3
      have e3 := abs_le_of_sq_le_sq (r4.trans (show (1 : ℝ) / 10 ^ 8 ≤ (1 / 10 ^ 4) ^ 2 by norm_num)) (by positivity)
      have e4 := (abs_le.1 e3).2
      norm_num at e4
      linarith

end Fiksi
