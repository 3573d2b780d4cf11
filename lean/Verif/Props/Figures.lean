import Verif.Proofs.FigureParts
/-!
# C74: turning and mirroring a figure. C75: the order of creation

Without decomposition and perturbation, in exact arithmetic.
-/
namespace Fiksi
open Spec

theorem Spec.Con.Calm.turns {φ : ℝ} {mirror : Bool} {con : Spec.Con ℝ} (h : con.Calm) : con.Turns φ mirror := by
  cases con <;> first | trivial | exact h.elim

theorem Spec.Store.SameFigure.calm {f : ℂ → ℂ} {ρ : Equiv.Perm Nat} {st st' : Store ℝ} (h : st.SameFigure f ρ st') (hc : ∀ con ∈ st.cons, con.Calm ∧ (st.pointsOf con).Nodup) :
    ∀ con ∈ st'.cons, con.Calm ∧ (st'.pointsOf con).Nodup := by
  intro con' hcon'
  refine ⟨?_, h.distinct (fun con hcon => (hc con hcon).2) con' hcon'⟩
  obtain ⟨l, h1, h2⟩ := h.cons
  obtain ⟨con, hcon, hf⟩ := forall₂_mem_right h2 (h1.mem_iff.1 hcon')
  have h3 : (con.rename ρ).Calm := by
    have := (hc con hcon).1
    cases con <;> first | trivial | exact this.elim
  clear hcon' hcon
  induction hf with
  | refl => exact h3
  | tail _ hf ih =>
    cases hf <;> first | trivial | exact ih.elim

/-! ## C74 -/

theorem run_moves (st : Store ℝ) {ups : List (Op ℝ)} (hups : ∀ op ∈ ups, ∃ i x y, op = .updatePoint i x y) :
    (st.run ups).cons = st.cons ∧ (st.run ups).fixed = st.fixed := by
  induction ups generalizing st with
  | nil => exact ⟨rfl, rfl⟩
  | cons op ups ih =>
    obtain ⟨i, x, y, rfl⟩ := hups op (by simp)
    obtain ⟨h1, h2⟩ := ih (st.step (.updatePoint i x y)) fun op hop => hups op (by simp [hop])
    exact ⟨h1, h2⟩

section
variable {counter : Nat} {ops ups : List (Op ℝ)} {c c' : Client ℝ} (h : Reaches counter ops c) (h' : Reaches counter (ops ++ ups) c') {φ : ℝ} {mirror : Bool}
  (hups : ∀ op ∈ ups, ∃ i x y, op = .updatePoint i x y)
  (hmoved : ∀ i : Nat, ((Store.empty ℝ).run (ops ++ ups)).elems[i]? = ((Store.empty ℝ).run ops).elems[i]?.map (Geo.mapElem (Geo.turn φ mirror)))

include hups hmoved in
theorem moved_same : ((Store.empty ℝ).run ops).SameFigure (Geo.turn φ mirror) (Equiv.refl Nat) ((Store.empty ℝ).run (ops ++ ups)) := by
  have hrun := store_run_append (Store.empty ℝ) ops ups
  obtain ⟨h1, h2⟩ := run_moves ((Store.empty ℝ).run ops) hups
  rw [← hrun] at h1 h2
  have hren : ∀ con : Spec.Con ℝ, con.rename (Equiv.refl Nat) = con := by intro con; cases con <;> rfl
  refine ⟨fun i => ?_, fun i => by rw [h2]; rfl, ((Store.empty ℝ).run ops).cons, by rw [h1], List.forall₂_same.2 fun con _ => by rw [hren]⟩
  refine (hmoved i).trans (congrArg (fun g => Option.map g _) (funext fun e => ?_))
  cases e <;> rfl

include h h' hups in
theorem moved_parts : SameParts (Equiv.refl Nat) ((Store.empty ℝ).run ops) ((Store.empty ℝ).run (ops ++ ups)) c.sys.graph.components c'.sys.graph.components := by
  have hg : c'.sys.graph = c.sys.graph := by
    have hap := h.apart (K := ∅) ups (fun op hop => by obtain ⟨i, x, y, rfl⟩ := hups op hop; exact Set.notMem_empty i) c' h'
    rw [hap.same]
  rw [hg]
  have h1 := h.incidents
  have h2 := h'.incidents
  rw [hg] at h2
  refine sameParts_refl ?_ (h2.symm.trans h1) _
  rw [store_run_append]
  exact (run_moves _ hups).1

include h h' hups hmoved in
/-- C74 (partial): a client that first turns the whole figure about the origin, by any angle, and mirrors it or not, and then solves gets the turned and mirrored result: every point, line and circle reads
as the turned one, every length as before. After any legal history, for constraints that do not refer to the orientation of the plane: angles only allow the trivial turn, signed distances from lines and
tangencies no mirroring. (Full statement: for every rigid motion and all constraints. It is false for translations, see `C74_far_from_origin_stops_solving`, and for angles, see
`C14_straight_angle_fails`.) -/
theorem C74_turned_figure_solves_alike_partial (hturns : ∀ con ∈ ((Store.empty ℝ).run ops).cons, con.Turns φ mirror) (hshort : (ops ++ ups).length < 2 ^ 24) (cast : ℝ → Int) {sort : SortByKey}
    (hsort : Spec.Sorts sort) {ord ord' : HashOrder} (hord : ord.Ok) (hord' : ord'.Ok) {opts : SolvingOptions} (ho : opts.optimizer = .levenbergMarquardt) (hd : opts.decomposer = .none)
    (hp : opts.perturb = false) :
    ∃ s s' k, (∀ fuel, k ≤ fuel → c.sys.solve (crateOptimize (qrLeastSquares sort (colamdOfStructure cast)) fuel) ord opts = .ok s ∧
        c'.sys.solve (crateOptimize (qrLeastSquares sort (colamdOfStructure cast)) fuel) ord' opts = .ok s') ∧
      ∀ (i : Nat) e, ((Store.empty ℝ).run ops).elems[i]? = some e →
        ∃ w, s.getValue e.kind ⟨counter, i⟩ = .ok w ∧ s'.getValue e.kind ⟨counter, i⟩ = .ok (Geo.mapValue (Geo.turn φ mirror) w) := by
  have hs1 : ops.length < 2 ^ 24 := by rw [List.length_append] at hshort; omega
  obtain ⟨s, k, hk⟩ := C52_solve_returns_partial cast hsort h hs1 hord (opts := opts) (by rw [hd]; simp) ho
  obtain ⟨s', k', hk'⟩ := C52_solve_returns_partial cast hsort h' hshort hord' (opts := opts) (by rw [hd]; simp) ho
  refine ⟨s, s', max k k', fun fuel hf => ⟨hk fuel (le_trans (le_max_left ..) hf), hk' fuel (le_trans (le_max_right ..) hf)⟩, fun i e he => ?_⟩
  exact figures_read h h' (moved_same hups hmoved) hturns (moved_parts h h' hups) (qrColamd_exact cast hsort) (h.fits hs1) (h'.fits hshort) (by rw [ho]; simp) hd hp (hk k le_rfl) (hk' k' le_rfl) he

include h h' hups hmoved in
/-- C74 (partial), for L-BFGS, if all constraints are about distinct points: whatever `solve` returns for the figure, it returns turned for the turned figure, if it returns. -/
theorem C74_lbfgs_turned_figure_partial (hturns : ∀ con ∈ ((Store.empty ℝ).run ops).cons, con.Turns φ mirror) (hdist : ((Store.empty ℝ).run ops).Distinct)
    (hshort : (ops ++ ups).length < 2 ^ 24) (cast : ℝ → Int) {sort : SortByKey} (hsort : Spec.Sorts sort) {ord ord' : HashOrder} {opts : SolvingOptions} (hd : opts.decomposer = .none)
    (hp : opts.perturb = false) {fuel fuel' : Nat} {s s' : System ℝ} (hs : c.sys.solve (crateOptimize (qrLeastSquares sort (colamdOfStructure cast)) fuel) ord opts = .ok s)
    (hs' : c'.sys.solve (crateOptimize (qrLeastSquares sort (colamdOfStructure cast)) fuel') ord' opts = .ok s') :
    ∀ (i : Nat) e, ((Store.empty ℝ).run ops).elems[i]? = some e →
      ∃ w, s.getValue e.kind ⟨counter, i⟩ = .ok w ∧ s'.getValue e.kind ⟨counter, i⟩ = .ok (Geo.mapValue (Geo.turn φ mirror) w) := fun i e he =>
  figures_read h h' (moved_same hups hmoved) hturns (moved_parts h h' hups) (qrColamd_exact cast hsort) (h.fits (by rw [List.length_append] at hshort; omega)) (h'.fits hshort) (fun _ => hdist) hd hp
    hs hs' he

include h h' hups hmoved in
/-- C74 (partial), for L-BFGS: coincidences, distances of points, incidences, equal lengths, parallel and perpendicular lines between distinct points, for which `solve` returns (C52). -/
theorem C74_lbfgs_returns_turned_partial (hcalm : ∀ con ∈ ((Store.empty ℝ).run ops).cons, con.Calm ∧ (((Store.empty ℝ).run ops).pointsOf con).Nodup) (hshort : (ops ++ ups).length < 2 ^ 24)
    (cast : ℝ → Int) {sort : SortByKey} (hsort : Spec.Sorts sort) {ord ord' : HashOrder} (hord : ord.Ok) (hord' : ord'.Ok) {opts : SolvingOptions} (ho : opts.optimizer = .lBfgs)
    (hd : opts.decomposer = .none) (hp : opts.perturb = false) :
    ∃ s s' k, (∀ fuel, k ≤ fuel → c.sys.solve (crateOptimize (qrLeastSquares sort (colamdOfStructure cast)) fuel) ord opts = .ok s ∧
        c'.sys.solve (crateOptimize (qrLeastSquares sort (colamdOfStructure cast)) fuel) ord' opts = .ok s') ∧
      ∀ (i : Nat) e, ((Store.empty ℝ).run ops).elems[i]? = some e →
        ∃ w, s.getValue e.kind ⟨counter, i⟩ = .ok w ∧ s'.getValue e.kind ⟨counter, i⟩ = .ok (Geo.mapValue (Geo.turn φ mirror) w) := by
  have hsame := moved_same hups hmoved
  obtain ⟨s, k, hk⟩ := C52_lbfgs_solve_returns_partial (qrLeastSquares sort (colamdOfStructure cast)) h hcalm hord (opts := opts) (by rw [hd]; simp) ho
  obtain ⟨s', k', hk'⟩ := C52_lbfgs_solve_returns_partial (qrLeastSquares sort (colamdOfStructure cast)) h' (hsame.calm hcalm) hord' (opts := opts) (by rw [hd]; simp) ho
  exact ⟨s, s', max k k', fun fuel hf => ⟨hk fuel (le_trans (le_max_left ..) hf), hk' fuel (le_trans (le_max_right ..) hf)⟩,
    C74_lbfgs_turned_figure_partial h h' hups hmoved (fun con hcon => (hcalm con hcon).1.turns) (fun con hcon => (hcalm con hcon).2) hshort cast hsort hd hp (hk k le_rfl) (hk' k' le_rfl)⟩

end

/-- Two points 1 apart that shall coincide. -/
noncomputable def pairOps : List (Op ℝ) := [.createPoint 0 0, .createPoint 1 0, .createCon (.pointPointCoincidence 0 1)]

theorem pair_reaches : ∃ c, Reaches 0 pairOps c := exists_reaches 0 pairOps (by
  simp [pairOps, Store.LegalRun, Store.Legal, Store.empty, Store.step, Store.IsPoint, Store.ConOk]) (by simp [pairOps])

theorem pair_moved (a b x y : ℝ) : ∃ c, Reaches 0 (pairOps ++ [.updatePoint 0 a b, .updatePoint 1 x y]) c := exists_reaches 0 _ (by
  simp [pairOps, Store.LegalRun, Store.Legal, Store.empty, Store.step, Store.IsPoint, Store.ConOk]) (by simp [pairOps])

/-- A case for C74: a quarter turn of two points that shall coincide. -/
example : ∃ c c', Reaches 0 pairOps c ∧ Reaches 0 (pairOps ++ [.updatePoint 0 0 0, .updatePoint 1 0 1]) c' ∧
    (∀ i : Nat, ((Store.empty ℝ).run (pairOps ++ [.updatePoint 0 0 0, .updatePoint 1 0 1])).elems[i]? = ((Store.empty ℝ).run pairOps).elems[i]?.map (Geo.mapElem (Geo.turn (Real.pi / 2) false))) ∧
    ∀ con ∈ ((Store.empty ℝ).run pairOps).cons, con.Turns (Real.pi / 2) false ∧ con.Calm ∧ (((Store.empty ℝ).run pairOps).pointsOf con).Nodup := by
  obtain ⟨c, h⟩ := pair_reaches
  obtain ⟨c', h'⟩ := pair_moved 0 0 0 1
  refine ⟨c, c', h, h', fun i => ?_, fun con hcon => ?_⟩
  · have h1 : ((Store.empty ℝ).run (pairOps ++ [.updatePoint 0 0 0, .updatePoint 1 0 1])).elems = [.point 0 0, .point 0 1] := rfl
    have h2 : ((Store.empty ℝ).run pairOps).elems = [.point 0 0, .point 1 0] := rfl
    rw [h1, h2]
    match i with
    | 0 => simp [Geo.mapElem, turn_coords]
    | 1 => simp [Geo.mapElem, turn_coords]
    | i + 2 => simp
  · have hc : ((Store.empty ℝ).run pairOps).cons = [.pointPointCoincidence 0 1] := rfl
    rw [hc, List.mem_singleton] at hcon
    subst hcon
    exact ⟨trivial, trivial, by simp [Store.pointsOf]⟩

/-- C74, the full claim fails for translations: two points 1 apart that shall coincide are brought together up to `1/1000` near the origin. When the client moves both by `10^9` first, `solve` returns the
figure as it is, with the points still 1 apart. -/
theorem C74_far_from_origin_stops_solving (cast : ℝ → Int) {sort : SortByKey} (hsort : Spec.Sorts sort) {ord : HashOrder} (hord : ord.Ok) :
    ∃ c c', Reaches 0 pairOps c ∧ Reaches 0 (pairOps ++ [.updatePoint 0 (10 ^ 9) 0, .updatePoint 1 (10 ^ 9 + 1) 0]) c' ∧
      (∀ i : Nat, ((Store.empty ℝ).run (pairOps ++ [.updatePoint 0 (10 ^ 9) 0, .updatePoint 1 (10 ^ 9 + 1) 0])).elems[i]? =
        ((Store.empty ℝ).run pairOps).elems[i]?.map (Geo.mapElem fun p => p + ⟨10 ^ 9, 0⟩)) ∧
      ∃ s k, (∀ fuel, k ≤ fuel → c.sys.solve (crateOptimize (qrLeastSquares sort (colamdOfStructure cast)) fuel) ord ⟨.levenbergMarquardt, .none, false⟩ = .ok s ∧
          c'.sys.solve (crateOptimize (qrLeastSquares sort (colamdOfStructure cast)) fuel) ord ⟨.levenbergMarquardt, .none, false⟩ = .ok c'.sys) ∧
        (∃ r, s.calculateResidual .pointPointCoincidence ⟨0, 0⟩ = .ok r ∧ |r| ≤ 1 / 1000) ∧ c'.sys.calculateResidual .pointPointCoincidence ⟨0, 0⟩ = .ok 1 := by
  obtain ⟨c, h⟩ := pair_reaches
  obtain ⟨c', h'⟩ := pair_moved (10 ^ 9) 0 (10 ^ 9 + 1) 0
  have hc : ((Store.empty ℝ).run pairOps).cons = [.pointPointCoincidence 0 1] := rfl
  have h1 : c.sys.vars = [0, 0, 1, 0] := by rw [h.crel.rel.vars]; rfl
  have h2 : c'.sys.vars = [10 ^ 9, 0, 10 ^ 9 + 1, 0] := by rw [h'.crel.rel.vars]; rfl
  have h3 : c.sys.expressions = [.variableVariableEquality 0 2, .variableVariableEquality 1 3] := by rw [h.crel.rel.exprs]; rfl
  have h4 : c'.sys.expressions = [.variableVariableEquality 0 2, .variableVariableEquality 1 3] := by rw [h'.crel.rel.exprs]; rfl
  have hn : NeverJoins ((Store.empty ℝ).run pairOps).arguments := by
    intro m l hm i hi j hj ⟨l', hl', _⟩ _
    have ha : ((Store.empty ℝ).run pairOps).arguments = [[0, 1]] := rfl
    rw [ha] at hm hl'
    have : m = 0 := by have := lt_of_getElem? hm; simpa using this
    subst this
    simp at hl'
  obtain ⟨s, k, h5, h6⟩ := C69_coincidences_solved_partial h hn ⟨.point 1 0, by simp [pairOps, Store.run, Store.empty, Store.step], .inl ⟨1, 0, rfl, .inl (by norm_num)⟩⟩
    (fun con hcon => by rw [hc, List.mem_singleton] at hcon; exact ⟨_, _, hcon⟩)
    ⟨fun _ => (1, 7), fun i hi => by simp [pairOps, Store.run, Store.empty, Store.step] at hi, fun _ _ _ => rfl⟩ (by simp [pairOps]) cast hsort hord
    (opts := ⟨.levenbergMarquardt, .none, false⟩) rfl rfl
  have hsc : c.sys.scale ≤ 3 := by
    rw [System.scale, h1, h3]
    show Real.sqrt ((0 + 0 * 0 + 0 * 0 + 1 * 1 + 0 * 0) / ((4 : ℕ) : ℝ)) ≤ 3
    rw [Real.sqrt_le_left (by norm_num)]
    norm_num
  have hsc' : 10 ^ 8 ≤ c'.sys.scale := by
    rw [System.scale, h2, h4]
    change (10 : ℝ) ^ 8 ≤ Real.sqrt ((0 + 10 ^ 9 * 10 ^ 9 + 0 * 0 + (10 ^ 9 + 1) * (10 ^ 9 + 1) + 0 * 0) / ((4 : ℕ) : ℝ))
    apply Real.le_sqrt_of_sq_le
    norm_num
  have hpos : 0 < c'.sys.scale := lt_of_lt_of_le (by norm_num) hsc'
  have hstay : ∀ fuel, c'.sys.solve (crateOptimize (qrLeastSquares sort (colamdOfStructure cast)) fuel) ord ⟨.levenbergMarquardt, .none, false⟩ = .ok c'.sys := by
    intro fuel
    have a1 : ∀ e ∈ c'.sys.scaledExpressions, ∀ r, e.calculateResidual (identityMap c'.sys.scaledVariables) = .ok r → |r| ≤ 1 / 10 ^ 8 := by
      intro e he r hr
      have hq : 1 / c'.sys.scale ≤ 1 / 10 ^ 8 := one_div_le_one_div_of_le (by norm_num) hsc'
      rw [System.scaledExpressions, h4] at he
      rw [System.scaledVariables, h2] at hr
      simp only [List.map_cons, List.map_nil, List.mem_cons, List.not_mem_nil, or_false] at he
      rcases he with rfl | rfl
      · have hr : Except.ok ((10 ^ 9 + 1) * (1 / c'.sys.scale) - 10 ^ 9 * (1 / c'.sys.scale)) = Except.ok (ε := Panic) r := hr
        cases hr
        have : ((10 : ℝ) ^ 9 + 1) * (1 / c'.sys.scale) - 10 ^ 9 * (1 / c'.sys.scale) = 1 / c'.sys.scale := by ring
        rw [this, abs_of_pos (by positivity)]
        exact hq
      · have hr : Except.ok (0 * (1 / c'.sys.scale) - 0 * (1 / c'.sys.scale)) = Except.ok (ε := Panic) r := hr
        cases hr
        simp
    have a2 : ∀ r : List ℝ, r.length ≤ c'.sys.expressions.length → (∀ y ∈ r, |y| ≤ 1 / 10 ^ 8) → FloatOps.ltB (normSquared (r.map (fun r => -r))) (ratio 1 (10 ^ 8)) = true := by
      intro r hr hy
      have h7 := sumSquares_bound hy
      have h8 : (r.length : ℝ) ≤ 2 := by rw [h4] at hr; exact_mod_cast hr
      have h9 : normSquared (r.map (fun r => -r)) = sumSquares r := by
        rw [normSquared_neg (fun x => neg_mul_neg x x), normSquared_real, sumSquares_real]
        simp only [sq]
      rw [h9]
      refine decide_eq_true ?_
      show sumSquares r < (1 : ℕ) / ((10 ^ 8 : ℕ) : ℝ)
      push_cast
      nlinarith
    have a3 : ∀ r : List ℝ, r.length ≤ c'.sys.expressions.length → (∀ y ∈ r, |y| ≤ 1 / 10 ^ 8) → FloatOps.ltB (sumSquares r) (ratio 1 10000 : ℝ) = true := by
      intro r hr hy
      have h7 := sumSquares_bound hy
      have h8 : (r.length : ℝ) ≤ 2 := by rw [h4] at hr; exact_mod_cast hr
      refine decide_eq_true ?_
      show sumSquares r < (1 : ℕ) / ((10000 : ℕ) : ℝ)
      push_cast
      nlinarith
    obtain ⟨V', e1, e2, e3⟩ := h'.crate_stays cast hsort (by simp [pairOps]) (Small := fun y => |y| ≤ 1 / 10 ^ 8) a1 a2 a3
      (fuel := fuel) hord (opts := ⟨.levenbergMarquardt, .none, false⟩) (by simp) rfl
    have : V' = c'.sys.vars := by
      refine List.ext_getElem? fun v => ?_
      cases hv : c'.sys.vars[v]? with
      | none =>
        rw [List.getElem?_eq_none_iff] at hv ⊢
        rw [e2]
        exact hv
      | some x =>
        rcases e3 v x hv with e4 | e4
        · exact e4
        · rw [e4]
          congr 1
          field_simp
    rw [e1, this]
  refine ⟨c, c', h, h', fun i => ?_, s, k, fun fuel hf => ⟨h5 fuel hf, hstay fuel⟩, ?_, ?_⟩
  · have e1 : ((Store.empty ℝ).run (pairOps ++ [.updatePoint 0 (10 ^ 9) 0, .updatePoint 1 (10 ^ 9 + 1) 0])).elems = [.point (10 ^ 9) 0, .point (10 ^ 9 + 1) 0] := rfl
    have e2 : ((Store.empty ℝ).run pairOps).elems = [.point 0 0, .point 1 0] := rfl
    rw [e1, e2]
    match i with
    | 0 => simp [Geo.mapElem]
    | 1 => simp [Geo.mapElem, add_comm]
    | i + 2 => simp
  · obtain ⟨r, h7, h8⟩ := h6 0 ⟨c.sys.id, 0⟩ 0 1 (h.crel.conHandle (by rw [hc]; simp)) (by rw [hc]; rfl)
    rw [h.sysId] at h7
    refine ⟨r, h7, h8.trans ?_⟩
    have h9 : √2 ≤ (3 / 2 : ℝ) := by
      rw [Real.sqrt_le_left (by norm_num)]
      norm_num
    have h10 : max (1 / 10 ^ 4 : ℝ) (((pairOps.length : ℝ) + 5) / 10 ^ 6) = 1 / 10 ^ 4 := by
      rw [max_eq_left]
      norm_num [pairOps]
    rw [h10]
    calc √2 * (c.sys.scale * (1 / 10 ^ 4)) ≤ 3 / 2 * (3 * (1 / 10 ^ 4)) :=
        mul_le_mul h9 (by linarith) (mul_nonneg (Real.sqrt_nonneg _) (by norm_num)) (by norm_num)
      _ ≤ 1 / 1000 := by norm_num
  · have key : (do let c ← (Client.new ℝ 0).run (pairOps ++ [.updatePoint 0 (10 ^ 9) 0, .updatePoint 1 (10 ^ 9 + 1) 0])
                   c.sys.calculateResidual .pointPointCoincidence ⟨0, 0⟩ : R ℝ) = .ok (√(0 + (10 ^ 9 + 1 - 10 ^ 9) * (10 ^ 9 + 1 - 10 ^ 9) + (0 - 0) * (0 - 0))) := rfl
    rw [h'.run, ok_bind] at key
    rw [key]
    norm_num

/-! ## C75 -/

/-- C75 (partial): the order in which a client creates the elements and the constraints, and the order of the arguments of symmetric constraints (points of a distance, points and arms of an angle with
the sign changed, segments, lines), do not matter. If two legal histories lead to the same figure up to that, and in neither a constraint joins parts that were separate, then after `solve` every element
reads the same in both. The second figure may also be turned and mirrored as a whole, as in C74. (Full statement: without the condition on joining; false, see `C75_order_of_constraints_matters`.) -/
theorem C75_turned_order_irrelevant_partial {φ : ℝ} {mirror : Bool} {ρ : Equiv.Perm Nat} {counter counter' : Nat} {ops ops' : List (Op ℝ)} {c c' : Client ℝ} (h : Reaches counter ops c)
    (h' : Reaches counter' ops' c') (hsame : ((Store.empty ℝ).run ops).SameFigure (Geo.turn φ mirror) ρ ((Store.empty ℝ).run ops'))
    (hturns : ∀ con ∈ ((Store.empty ℝ).run ops).cons, con.Turns φ mirror) (hn : NeverJoins ((Store.empty ℝ).run ops).arguments) (hn' : NeverJoins ((Store.empty ℝ).run ops').arguments)
    (hshort : ops.length < 2 ^ 24) (hshort' : ops'.length < 2 ^ 24) (cast : ℝ → Int) {sort : SortByKey} (hsort : Spec.Sorts sort) {ord ord' : HashOrder} (hord : ord.Ok) (hord' : ord'.Ok)
    {opts : SolvingOptions} (ho : opts.optimizer = .levenbergMarquardt) (hd : opts.decomposer = .none) (hp : opts.perturb = false) :
    ∃ s s' k, (∀ fuel, k ≤ fuel → c.sys.solve (crateOptimize (qrLeastSquares sort (colamdOfStructure cast)) fuel) ord opts = .ok s ∧
        c'.sys.solve (crateOptimize (qrLeastSquares sort (colamdOfStructure cast)) fuel) ord' opts = .ok s') ∧
      ∀ (i : Nat) e, ((Store.empty ℝ).run ops).elems[i]? = some e →
        ∃ w, s.getValue e.kind ⟨counter, i⟩ = .ok w ∧ s'.getValue e.kind ⟨counter', ρ i⟩ = .ok (Geo.mapValue (Geo.turn φ mirror) w) := by
  obtain ⟨s, k, hk⟩ := C52_solve_returns_partial cast hsort h hshort hord (opts := opts) (by rw [hd]; simp) ho
  obtain ⟨s', k', hk'⟩ := C52_solve_returns_partial cast hsort h' hshort' hord' (opts := opts) (by rw [hd]; simp) ho
  refine ⟨s, s', max k k', fun fuel hf => ⟨hk fuel (le_trans (le_max_left ..) hf), hk' fuel (le_trans (le_max_right ..) hf)⟩, fun i e he => ?_⟩
  exact figures_read h h' hsame hturns (sameParts_of_neverJoins h h' hsame hn hn') (qrColamd_exact cast hsort) (h.fits hshort) (h'.fits hshort') (by rw [ho]; simp) hd hp (hk k le_rfl) (hk' k' le_rfl) he

/-- C75 (partial), for L-BFGS, if all constraints are about distinct points: whatever `solve` returns for the two figures, it is the same figure, if it returns. -/
theorem C75_lbfgs_order_irrelevant_partial {φ : ℝ} {mirror : Bool} {ρ : Equiv.Perm Nat} {counter counter' : Nat} {ops ops' : List (Op ℝ)} {c c' : Client ℝ} (h : Reaches counter ops c)
    (h' : Reaches counter' ops' c') (hsame : ((Store.empty ℝ).run ops).SameFigure (Geo.turn φ mirror) ρ ((Store.empty ℝ).run ops'))
    (hturns : ∀ con ∈ ((Store.empty ℝ).run ops).cons, con.Turns φ mirror) (hdist : ((Store.empty ℝ).run ops).Distinct) (hn : NeverJoins ((Store.empty ℝ).run ops).arguments)
    (hn' : NeverJoins ((Store.empty ℝ).run ops').arguments) (hshort : ops.length < 2 ^ 24) (hshort' : ops'.length < 2 ^ 24) (cast : ℝ → Int) {sort : SortByKey} (hsort : Spec.Sorts sort)
    {ord ord' : HashOrder} {opts : SolvingOptions} (hd : opts.decomposer = .none) (hp : opts.perturb = false) {fuel fuel' : Nat} {s s' : System ℝ}
    (hs : c.sys.solve (crateOptimize (qrLeastSquares sort (colamdOfStructure cast)) fuel) ord opts = .ok s)
    (hs' : c'.sys.solve (crateOptimize (qrLeastSquares sort (colamdOfStructure cast)) fuel') ord' opts = .ok s') :
    ∀ (i : Nat) e, ((Store.empty ℝ).run ops).elems[i]? = some e →
      ∃ w, s.getValue e.kind ⟨counter, i⟩ = .ok w ∧ s'.getValue e.kind ⟨counter', ρ i⟩ = .ok (Geo.mapValue (Geo.turn φ mirror) w) := fun i e he =>
  figures_read h h' hsame hturns (sameParts_of_neverJoins h h' hsame hn hn') (qrColamd_exact cast hsort) (h.fits hshort) (h'.fits hshort') (fun _ => hdist) hd hp hs hs' he

theorem turn_zero : Geo.turn 0 false = id := by
  funext p
  simp [Geo.turn]

theorem mapValue_id (w : ElementValue ℝ) : Geo.mapValue id w = w := by cases w <;> rfl

/-- C75 for a figure that is not turned: all constraints, with exactly the same values. -/
theorem C75_order_irrelevant_partial {ρ : Equiv.Perm Nat} {counter counter' : Nat} {ops ops' : List (Op ℝ)} {c c' : Client ℝ} (h : Reaches counter ops c)
    (h' : Reaches counter' ops' c') (hsame : ((Store.empty ℝ).run ops).SameFigure id ρ ((Store.empty ℝ).run ops'))
    (hn : NeverJoins ((Store.empty ℝ).run ops).arguments) (hn' : NeverJoins ((Store.empty ℝ).run ops').arguments)
    (hshort : ops.length < 2 ^ 24) (hshort' : ops'.length < 2 ^ 24) (cast : ℝ → Int) {sort : SortByKey} (hsort : Spec.Sorts sort) {ord ord' : HashOrder} (hord : ord.Ok) (hord' : ord'.Ok)
    {opts : SolvingOptions} (ho : opts.optimizer = .levenbergMarquardt) (hd : opts.decomposer = .none) (hp : opts.perturb = false) :
    ∃ s s' k, (∀ fuel, k ≤ fuel → c.sys.solve (crateOptimize (qrLeastSquares sort (colamdOfStructure cast)) fuel) ord opts = .ok s ∧
        c'.sys.solve (crateOptimize (qrLeastSquares sort (colamdOfStructure cast)) fuel) ord' opts = .ok s') ∧
      ∀ (i : Nat) e, ((Store.empty ℝ).run ops).elems[i]? = some e → ∃ w, s.getValue e.kind ⟨counter, i⟩ = .ok w ∧ s'.getValue e.kind ⟨counter', ρ i⟩ = .ok w := by
  rw [← turn_zero] at hsame
  obtain ⟨s, s', k, h1, h2⟩ := C75_turned_order_irrelevant_partial h h' hsame (fun con _ => by cases con <;> simp [Spec.Con.Turns]) hn hn' hshort hshort' cast hsort hord hord' ho hd hp
  refine ⟨s, s', k, h1, fun i e he => ?_⟩
  obtain ⟨w, h3, h4⟩ := h2 i e he
  rw [turn_zero, mapValue_id] at h4
  exact ⟨w, h3, h4⟩

/-- The points of `splitMeetOps` with the same coincidences, each one starting from a point that already has one. -/
noncomputable def pathMeetOps : List (Op ℝ) :=
  [.createPoint 1 0, .createPoint 1 0, .createPoint 1 0, .createPoint 1 0, .createPoint 2 0, .createPoint 2 0, .createPoint 2 0, .createPoint 2 0,
   .createCon (.pointPointCoincidence 0 1), .createCon (.pointPointCoincidence 1 2), .createCon (.pointPointCoincidence 2 3),
   .createCon (.pointPointCoincidence 3 7), .createCon (.pointPointCoincidence 6 7), .createCon (.pointPointCoincidence 5 6),
   .createCon (.pointPointCoincidence 4 5)]

theorem pathMeet_neverJoins : NeverJoins ((Store.empty ℝ).run pathMeetOps).arguments := by
  have harg : ((Store.empty ℝ).run pathMeetOps).arguments = [[0, 1], [1, 2], [2, 3], [3, 7], [6, 7], [5, 6], [4, 5]] := rfl
  rw [harg]
  intro m l hm i hi j hj hci hcj
  have hlen := lt_of_getElem? hm
  simp only [List.length_cons, List.length_nil] at hlen
  suffices i = j by rw [this]; exact Linked.refl _ _
  interval_cases m <;> cases hm <;> simp only [List.mem_cons, List.not_mem_nil, or_false] at hi hj <;> rcases hi with rfl | rfl <;> rcases hj with rfl | rfl <;>
    simp [Constrained] at hci hcj ⊢

theorem pathMeet_same : ((Store.empty ℝ).run pathMeetOps).SameFigure id (Equiv.refl Nat) ((Store.empty ℝ).run splitMeetOps) := by
  have h1 : ((Store.empty ℝ).run pathMeetOps).cons =
      ([(0, 1), (1, 2), (2, 3), (3, 7), (6, 7), (5, 6), (4, 5)] : List (Nat × Nat)).map fun p => .pointPointCoincidence p.1 p.2 := rfl
  have h2 : ((Store.empty ℝ).run splitMeetOps).cons =
      ([(0, 1), (2, 3), (1, 2), (4, 5), (6, 7), (5, 6), (3, 7)] : List (Nat × Nat)).map fun p => .pointPointCoincidence p.1 p.2 := rfl
  have hren : ∀ con : Spec.Con ℝ, con.rename (Equiv.refl Nat) = con := by intro con; cases con <;> rfl
  have he : ∀ e : Spec.Elem ℝ, (Geo.mapElem id e).rename (Equiv.refl Nat) = e := by intro e; cases e <;> rfl
  refine ⟨fun i => ?_, fun i => by simp [pathMeetOps, splitMeetOps, Store.run, Store.empty, Store.step], _, ?_, List.forall₂_same.2 fun con _ => by rw [hren]⟩
  · have h3 : ((Store.empty ℝ).run splitMeetOps).elems = ((Store.empty ℝ).run pathMeetOps).elems := rfl
    simp only [he, Option.map_id']
    rw [h3]
    rfl
  · rw [h1, h2]
    exact List.Perm.map _ (by decide)

theorem pathMeet_reaches : ∃ c, Reaches 0 pathMeetOps c := exists_reaches 0 pathMeetOps (by
  simp [pathMeetOps, Store.LegalRun, Store.Legal, Store.empty, Store.step, Store.IsPoint, Store.ConOk]) (by simp [pathMeetOps])

/-- C75, the full claim fails when a constraint joins parts that were separate: the same eight points with the same seven coincidences, created in two orders. In one order all coincidences hold after
`solve` up to `1/1000`; in the other order one of them is not solved at all, and its points stay at distance 1. -/
theorem C75_order_of_constraints_matters (cast : ℝ → Int) {sort : SortByKey} (hsort : Spec.Sorts sort) {ord : HashOrder} (hord : ord.Ok) :
    ((Store.empty ℝ).run pathMeetOps).SameFigure id (Equiv.refl Nat) ((Store.empty ℝ).run splitMeetOps) ∧
    ∃ c c', Reaches 0 pathMeetOps c ∧ Reaches 0 splitMeetOps c' ∧ ∃ s s' k,
      (∀ fuel, k ≤ fuel → c.sys.solve (crateOptimize (qrLeastSquares sort (colamdOfStructure cast)) fuel) ord ⟨.levenbergMarquardt, .none, false⟩ = .ok s ∧
        c'.sys.solve (crateOptimize (qrLeastSquares sort (colamdOfStructure cast)) fuel) ord ⟨.levenbergMarquardt, .none, false⟩ = .ok s') ∧
      (∀ n < 7, ∃ r, s.calculateResidual .pointPointCoincidence ⟨0, n⟩ = .ok r ∧ |r| ≤ 1 / 1000) ∧ s'.calculateResidual .pointPointCoincidence ⟨0, 6⟩ = .ok 1 := by
  refine ⟨pathMeet_same, ?_⟩
  obtain ⟨c, h⟩ := pathMeet_reaches
  obtain ⟨c', hdl, h', -, -, -, h1, s', k', h2, h3⟩ := C69_joined_coincidence_unsolved cast hsort hord
  have hc : ((Store.empty ℝ).run pathMeetOps).cons = [.pointPointCoincidence 0 1, .pointPointCoincidence 1 2, .pointPointCoincidence 2 3, .pointPointCoincidence 3 7,
    .pointPointCoincidence 6 7, .pointPointCoincidence 5 6, .pointPointCoincidence 4 5] := rfl
  obtain ⟨s, k, h5, h6⟩ := C69_coincidences_solved_partial h pathMeet_neverJoins
    ⟨.point 1 0, by simp [pathMeetOps, Store.run, Store.empty, Store.step], .inl ⟨1, 0, rfl, .inl (by norm_num)⟩⟩
    (fun con hcon => by
      rw [hc] at hcon
      simp only [List.mem_cons, List.not_mem_nil, or_false] at hcon
      rcases hcon with rfl | rfl | rfl | rfl | rfl | rfl | rfl <;> exact ⟨_, _, rfl⟩)
    ⟨fun _ => (1, 7), fun i hi => by simp [pathMeetOps, Store.run, Store.empty, Store.step] at hi, fun _ _ _ => rfl⟩ (by simp [pathMeetOps]) cast hsort hord
    (opts := ⟨.levenbergMarquardt, .none, false⟩) rfl rfl
  have hsc : c.sys.scale ≤ 3 := by
    have e1 : c.sys.vars = [1, 0, 1, 0, 1, 0, 1, 0, 2, 0, 2, 0, 2, 0, 2, 0] := by rw [h.crel.rel.vars]; rfl
    have e2 : c.sys.expressions = [.variableVariableEquality 0 2, .variableVariableEquality 1 3, .variableVariableEquality 2 4, .variableVariableEquality 3 5,
        .variableVariableEquality 4 6, .variableVariableEquality 5 7, .variableVariableEquality 6 14, .variableVariableEquality 7 15,
        .variableVariableEquality 12 14, .variableVariableEquality 13 15, .variableVariableEquality 10 12, .variableVariableEquality 11 13,
        .variableVariableEquality 8 10, .variableVariableEquality 9 11] := by rw [h.crel.rel.exprs]; rfl
    rw [System.scale, e1, e2]
    show Real.sqrt ((0 + 1 * 1 + 0 * 0 + 1 * 1 + 0 * 0 + 1 * 1 + 0 * 0 + 1 * 1 + 0 * 0 + 2 * 2 + 0 * 0 + 2 * 2 + 0 * 0 + 2 * 2 + 0 * 0 + 2 * 2 + 0 * 0) / ((16 : ℕ) : ℝ)) ≤ 3
    rw [Real.sqrt_le_left (by norm_num)]
    norm_num
  refine ⟨c, c', h, h', s, s', max k k', fun fuel hf => ⟨h5 fuel (le_trans (le_max_left ..) hf), h2 fuel (le_trans (le_max_right ..) hf)⟩, fun n hn => ?_, ?_⟩
  · obtain ⟨p, q, hpq⟩ : ∃ p q, ((Store.empty ℝ).run pathMeetOps).cons[n]? = some (.pointPointCoincidence p q) := by
      rw [hc]
      interval_cases n <;> exact ⟨_, _, rfl⟩
    obtain ⟨r, h7, h8⟩ := h6 n ⟨c.sys.id, n⟩ p q (h.crel.conHandle (by rw [hc]; exact hn)) hpq
    rw [h.sysId] at h7
    refine ⟨r, h7, h8.trans ?_⟩
    have h9 : √2 ≤ (3 / 2 : ℝ) := by
      rw [Real.sqrt_le_left (by norm_num)]
      norm_num
    have h10 : max (1 / 10 ^ 4 : ℝ) (((pathMeetOps.length : ℝ) + 5) / 10 ^ 6) = 1 / 10 ^ 4 := by
      rw [max_eq_left]
      norm_num [pathMeetOps]
    rw [h10]
    calc √2 * (c.sys.scale * (1 / 10 ^ 4)) ≤ 3 / 2 * (3 * (1 / 10 ^ 4)) :=
        mul_le_mul h9 (by linarith) (mul_nonneg (Real.sqrt_nonneg _) (by norm_num)) (by norm_num)
      _ ≤ 1 / 1000 := by norm_num
  · rw [h'.crel.conHandle (by show 6 < 7; norm_num)] at h1
    cases h1
    rwa [h'.sysId] at h3

theorem neverJoins_two (a b : List Nat) : NeverJoins [a, b] := by
  intro m l hm i hi j hj hci hcj
  have hlen := lt_of_getElem? hm
  simp only [List.length_cons, List.length_nil] at hlen
  obtain ⟨k, hk, hik⟩ := hci
  obtain ⟨k', hk', hjk⟩ := hcj
  have hm' : m = 1 := by
    rcases (show m = 0 ∨ m = 1 by omega) with rfl | rfl
    · simp at hk
    · rfl
  subst hm'
  simp only [List.take_succ_cons, List.take_zero, List.mem_singleton] at hk hk'
  subst hk hk'
  exact .single ⟨_, by simp, hik, hjk⟩

/-- Two points and a line through them, the line at a distance from the origin. -/
noncomputable def guideOps : List (Op ℝ) :=
  [.createPoint 0 0, .createPoint 1 0, .createPoint 1 2, .createLine 1 2, .createCon (.pointPointDistance 1 2 3), .createCon (.pointLineDistance 0 3 2)]

/-- The same figure after a quarter turn, created in another order and with the ends of the distance exchanged. -/
noncomputable def guideOps' : List (Op ℝ) :=
  [.createPoint (-2) 1, .createPoint 0 1, .createPoint 0 0, .createLine 1 0, .createCon (.pointLineDistance 2 3 2), .createCon (.pointPointDistance 0 1 3)]

/-- A case for C75: a point, a segment of length 3 on a line, and the distance of the point from the line; the points are created in two orders, the constraints too. -/
example : ∃ c c' ρ, Reaches 0 guideOps c ∧ Reaches 5 guideOps' c' ∧ ((Store.empty ℝ).run guideOps).SameFigure (Geo.turn (Real.pi / 2) false) ρ ((Store.empty ℝ).run guideOps') ∧
    (∀ con ∈ ((Store.empty ℝ).run guideOps).cons, con.Turns (Real.pi / 2) false) ∧
    NeverJoins ((Store.empty ℝ).run guideOps).arguments ∧ NeverJoins ((Store.empty ℝ).run guideOps').arguments ∧
    ((Store.empty ℝ).run guideOps).Distinct ∧ ρ 0 = 2 := by
  obtain ⟨c, h⟩ := exists_reaches 0 guideOps (by
    simp [guideOps, Store.LegalRun, Store.Legal, Store.empty, Store.step, Store.IsPoint, Store.IsLine, Store.ConOk]) (by simp [guideOps])
  obtain ⟨c', h'⟩ := exists_reaches 5 guideOps' (by
    simp [guideOps', Store.LegalRun, Store.Legal, Store.empty, Store.step, Store.IsPoint, Store.IsLine, Store.ConOk]) (by simp [guideOps'])
  have hc : ((Store.empty ℝ).run guideOps).cons = [.pointPointDistance 1 2 3, .pointLineDistance 0 3 2] := rfl
  have hc' : ((Store.empty ℝ).run guideOps').cons = [.pointLineDistance 2 3 2, .pointPointDistance 0 1 3] := rfl
  have he : ((Store.empty ℝ).run guideOps).elems = [.point 0 0, .point 1 0, .point 1 2, .line 1 2] := rfl
  have he' : ((Store.empty ℝ).run guideOps').elems = [.point (-2) 1, .point 0 1, .point 0 0, .line 1 0] := rfl
  refine ⟨c, c', Equiv.swap 0 2, h, h', ⟨fun i => ?_, fun i => ?_, [.pointPointDistance 0 1 3, .pointLineDistance 2 3 2], ?_, ?_⟩, ?_, ?_, ?_, ?_, rfl⟩
  · rw [he, he']
    match i with
    | 0 => simp [Geo.mapElem, Elem.rename, turn_coords]
    | 1 => rw [Equiv.swap_apply_of_ne_of_ne (by decide) (by decide)]; simp [Geo.mapElem, Elem.rename, turn_coords]
    | 2 => simp [Geo.mapElem, Elem.rename, turn_coords]
    | 3 => rw [Equiv.swap_apply_of_ne_of_ne (by decide) (by decide)]; rfl
    | i + 4 => rw [Equiv.swap_apply_of_ne_of_ne (by omega) (by omega)]; simp
  · simp [guideOps, guideOps', Store.run, Store.empty, Store.step]
  · rw [hc']
    exact List.Perm.swap _ _ _
  · rw [hc]
    exact .cons (.single (.distance 1 0 3)) (.cons .refl .nil)
  · rw [hc]
    simp [Spec.Con.Turns]
  · have ha : ((Store.empty ℝ).run guideOps).arguments = [[1, 2], [0, 1, 2]] := rfl
    exact ha ▸ neverJoins_two _ _
  · have ha : ((Store.empty ℝ).run guideOps').arguments = [[2, 1, 0], [0, 1]] := rfl
    exact ha ▸ neverJoins_two _ _
  · intro con hcon
    rw [hc] at hcon
    simp only [List.mem_cons, List.not_mem_nil, or_false] at hcon
    rcases hcon with rfl | rfl
    · simp [Store.pointsOf]
    · simp [Store.pointsOf, Store.ends, he]

end Fiksi
