import Verif.Props.Figures
import Verif.Props.NotWorse
import Verif.Props.Centroid
/-!
# C90: a symmetric figure stays symmetric
-/
namespace Fiksi
open Spec

section
variable {φ : ℝ} {mirror : Bool} {ρ : Equiv.Perm Nat} {counter : Nat} {ops : List (Op ℝ)} {c : Client ℝ} (h : Reaches counter ops c)
  (hsym : ((Store.empty ℝ).run ops).SameFigure (Geo.turn φ mirror) ρ ((Store.empty ℝ).run ops)) (hturns : ∀ con ∈ ((Store.empty ℝ).run ops).cons, con.Turns φ mirror)
  (hn : NeverJoins ((Store.empty ℝ).run ops).arguments) (hshort : ops.length < 2 ^ 24)
include h hsym hturns hn hshort

/-- C90 (partial): a symmetric figure stays symmetric. If a turn about the origin or a mirroring, together with a renumbering of the elements, leads from the figure to itself (elements, fixed ones and
constraints, up to their order), it leads from the result of `solve` to itself. With `Decomposer::None`, Levenberg–Marquardt and no perturbation, after any legal history in which no constraint joins
parts. (Full statement: for all options and all rigid motions; false for the other options, see `C90_default_breaks_symmetry` and `C90_singlePass_breaks_symmetry`.) -/
theorem C90_symmetry_kept_partial (cast : ℝ → Int) {sort : SortByKey} (hsort : Spec.Sorts sort) {ord : HashOrder} (hord : ord.Ok) {opts : SolvingOptions}
    (ho : opts.optimizer = .levenbergMarquardt) (hd : opts.decomposer = .none) (hp : opts.perturb = false) :
    ∃ s k, (∀ fuel, k ≤ fuel → c.sys.solve (crateOptimize (qrLeastSquares sort (colamdOfStructure cast)) fuel) ord opts = .ok s) ∧
      ∀ (i : Nat) e, ((Store.empty ℝ).run ops).elems[i]? = some e →
        ∃ w, s.getValue e.kind ⟨counter, i⟩ = .ok w ∧ s.getValue e.kind ⟨counter, ρ i⟩ = .ok (Geo.mapValue (Geo.turn φ mirror) w) := by
  obtain ⟨s, s', k, h1, h2⟩ := C75_turned_order_irrelevant_partial h h hsym hturns hn hn hshort hshort cast hsort hord hord ho hd hp
  have hss : s = s' := Except.ok.inj ((h1 k le_rfl).1.symm.trans (h1 k le_rfl).2)
  subst hss
  exact ⟨s, k, fun fuel hf => (h1 fuel hf).1, h2⟩

/-- C90 (partial), for L-BFGS, if all constraints are about distinct points: the result is symmetric, if there is one. -/
theorem C90_lbfgs_symmetry_kept_partial (hdist : ((Store.empty ℝ).run ops).Distinct) (cast : ℝ → Int) {sort : SortByKey} (hsort : Spec.Sorts sort) {ord : HashOrder} {opts : SolvingOptions}
    (hd : opts.decomposer = .none) (hp : opts.perturb = false) {fuel : Nat} {s : System ℝ}
    (hs : c.sys.solve (crateOptimize (qrLeastSquares sort (colamdOfStructure cast)) fuel) ord opts = .ok s) :
    ∀ (i : Nat) e, ((Store.empty ℝ).run ops).elems[i]? = some e →
      ∃ w, s.getValue e.kind ⟨counter, i⟩ = .ok w ∧ s.getValue e.kind ⟨counter, ρ i⟩ = .ok (Geo.mapValue (Geo.turn φ mirror) w) :=
  C75_lbfgs_order_irrelevant_partial h h hsym hturns hdist hn hn hshort hshort cast hsort hd hp hs hs

end

/-- What C90 says of a point on the axis: if the figure is symmetric about the x-axis and the point is its own image, it stays on the axis. -/
theorem C90_axis_point_partial {ρ : Equiv.Perm Nat} {counter : Nat} {ops : List (Op ℝ)} {c : Client ℝ} (h : Reaches counter ops c)
    (hsym : ((Store.empty ℝ).run ops).SameFigure (starRingEnd ℂ) ρ ((Store.empty ℝ).run ops)) (hturns : ∀ con ∈ ((Store.empty ℝ).run ops).cons, con.Turns 0 true)
    (hn : NeverJoins ((Store.empty ℝ).run ops).arguments) (hshort : ops.length < 2 ^ 24) (cast : ℝ → Int) {sort : SortByKey} (hsort : Spec.Sorts sort) {ord : HashOrder} (hord : ord.Ok)
    {opts : SolvingOptions} (ho : opts.optimizer = .levenbergMarquardt) (hd : opts.decomposer = .none) (hp : opts.perturb = false) :
    ∃ s k, (∀ fuel, k ≤ fuel → c.sys.solve (crateOptimize (qrLeastSquares sort (colamdOfStructure cast)) fuel) ord opts = .ok s) ∧
      ∀ i, ((Store.empty ℝ).run ops).IsPoint i → ρ i = i → ∃ x, s.getValue .point ⟨counter, i⟩ = .ok (.point x 0) := by
  have hmir : Geo.turn 0 true = starRingEnd ℂ := by
    funext p
    apply Complex.ext <;> simp [Geo.turn]
  rw [← hmir] at hsym
  obtain ⟨s, k, h1, h2⟩ := C90_symmetry_kept_partial h hsym hturns hn hshort cast hsort hord ho hd hp
  refine ⟨s, k, h1, fun i ⟨x, y, hxy⟩ hi => ?_⟩
  obtain ⟨w, h3, h4⟩ := h2 i _ hxy
  rw [hi] at h4
  have h5 := Except.ok.inj (h3.symm.trans h4)
  obtain ⟨result, hre⟩ := C25_solve_is_a_call h (by omega) hord (h1 k le_rfl)
  have hid : s.id = counter := hre.sysId (c := { c with sys := s })
  obtain ⟨hd1, e, h6, h7, h8⟩ := hre.crel.getValue_inv (i := i) (tag := .point) (v := w) (hre.crel.elemHandle (by
    obtain ⟨-, hres, -⟩ := (legalRun_append _ _ _).1 hre.legal
    have helems : ((Store.empty ℝ).run (ops ++ [.solve result])).elems = result := by rw [Store.run, List.foldl_append]; rfl
    rw [helems, ← hres.length_eq]
    exact lt_of_getElem? hxy)) (by show s.getValue .point ⟨s.id, i⟩ = _; rw [hid]; exact h3)
  cases e with
  | point a b =>
    rw [Store.value, h6] at h8
    cases h8
    simp only [Geo.mapValue, hmir, ElementValue.point.injEq, Complex.conj_re, Complex.conj_im, true_and] at h5
    have : b = 0 := by linarith
    subst this
    exact ⟨a, h3⟩
  | _ => simp [Elem.kind] at h7

/-! ## Cases, and where symmetry is lost -/

theorem turn_pi (mirror : Bool) (p : ℂ) : Geo.turn Real.pi mirror p = ⟨-p.re, if mirror then p.im else -p.im⟩ := by
  rw [Geo.turn, Complex.exp_pi_mul_I]
  cases mirror <;> apply Complex.ext <;> simp

/-- `tugOps` is symmetric about the y-axis. -/
theorem tug_symmetric : ((Store.empty ℝ).run tugOps).SameFigure (Geo.turn Real.pi true) (Equiv.swap 0 1) ((Store.empty ℝ).run tugOps) := by
  have he : ((Store.empty ℝ).run tugOps).elems = [.point (-2) 0, .point 2 0, .point 0 0, .length 0, .length 0] := rfl
  have hc : ((Store.empty ℝ).run tugOps).cons = [.pointPointCoincidence 0 2, .pointPointCoincidence 1 2] := rfl
  have hf : ((Store.empty ℝ).run tugOps).fixed = {0, 1} := by
    simp [tugOps, Store.run, Store.empty, Store.step, Store.primitives]
  have hs : ∀ n, Equiv.swap 0 1 (n + 2) = n + 2 := fun n => Equiv.swap_apply_of_ne_of_ne (by omega) (by omega)
  refine ⟨fun i => ?_, fun i => ?_, [.pointPointCoincidence 1 2, .pointPointCoincidence 0 2], by rw [hc]; exact List.Perm.swap .., ?_⟩
  · rw [he]
    match i with
    | 0 => simp [Geo.mapElem, turn_pi, Elem.rename]
    | 1 => simp [Geo.mapElem, turn_pi, Elem.rename]
    | 2 => rw [hs 0]; simp [Geo.mapElem, turn_pi, Elem.rename]
    | 3 => rw [hs 1]; rfl
    | 4 => rw [hs 2]; rfl
    | n + 5 => rw [hs (n + 3)]; rfl
  · rw [hf]
    match i with
    | 0 => simp
    | 1 => simp
    | n + 2 => rw [hs n]
  · rw [hc]
    have h2 := hs 0
    refine .cons ?_ (.cons ?_ .nil)
    · simp only [Spec.Con.rename, Equiv.swap_apply_left, zero_add] at h2 ⊢
      rw [h2]
    · simp only [Spec.Con.rename, Equiv.swap_apply_right, zero_add] at h2 ⊢
      rw [h2]

/-- A case for C90: a point between two fixed points, asked to be at both (the figure is symmetric about the y-axis). -/
example : ∃ c, Reaches 0 tugOps c ∧ (∀ con ∈ ((Store.empty ℝ).run tugOps).cons, con.Turns Real.pi true) ∧ NeverJoins ((Store.empty ℝ).run tugOps).arguments ∧
    ((Store.empty ℝ).run tugOps).SameFigure (Geo.turn Real.pi true) (Equiv.swap 0 1) ((Store.empty ℝ).run tugOps) := by
  obtain ⟨c, h⟩ := exists_reaches 0 tugOps (by
    simp [tugOps, Store.LegalRun, Store.Legal, Store.empty, Store.step, Store.IsPoint, Store.ConOk, Elem.kind]) (by simp [tugOps])
  refine ⟨c, h, fun con hcon => ?_, neverJoins_two _ _, tug_symmetric⟩
  have hc : ((Store.empty ℝ).run tugOps).cons = [.pointPointCoincidence 0 2, .pointPointCoincidence 1 2] := rfl
  rw [hc] at hcon
  simp only [List.mem_cons, List.not_mem_nil, or_false] at hcon
  rcases hcon with rfl | rfl <;> trivial

/-- A triangle with two equal sides to be made longer, symmetric about the x-axis; the tip is on it. -/
noncomputable def kiteOps : List (Op ℝ) :=
  [.createPoint 0 0, .createPoint 1 1, .createPoint 1 (-1), .createCon (.pointPointDistance 0 1 5), .createCon (.pointPointDistance 2 0 5)]

/-- A case for `C90_axis_point_partial`: the tip of the triangle stays on the x-axis. -/
example : ∃ c, Reaches 0 kiteOps c ∧ ((Store.empty ℝ).run kiteOps).SameFigure (starRingEnd ℂ) (Equiv.swap 1 2) ((Store.empty ℝ).run kiteOps) ∧
    (∀ con ∈ ((Store.empty ℝ).run kiteOps).cons, con.Turns 0 true) ∧ NeverJoins ((Store.empty ℝ).run kiteOps).arguments ∧ ((Store.empty ℝ).run kiteOps).IsPoint 0 ∧ Equiv.swap 1 2 0 = 0 := by
  obtain ⟨c, h⟩ := exists_reaches 0 kiteOps (by
    simp [kiteOps, Store.LegalRun, Store.Legal, Store.empty, Store.step, Store.IsPoint, Store.ConOk]) (by simp [kiteOps])
  have he : ((Store.empty ℝ).run kiteOps).elems = [.point 0 0, .point 1 1, .point 1 (-1)] := rfl
  have hc : ((Store.empty ℝ).run kiteOps).cons = [.pointPointDistance 0 1 5, .pointPointDistance 2 0 5] := rfl
  have hf : ((Store.empty ℝ).run kiteOps).fixed = ∅ := by simp [kiteOps, Store.run, Store.empty, Store.step]
  have h0 : Equiv.swap 1 2 0 = 0 := Equiv.swap_apply_of_ne_of_ne (by omega) (by omega)
  refine ⟨c, h, ⟨fun i => ?_, fun i => by simp [hf], [.pointPointDistance 2 0 5, .pointPointDistance 0 1 5], by rw [hc]; exact List.Perm.swap .., ?_⟩, fun con hcon => ?_, neverJoins_two _ _, ⟨0, 0, rfl⟩, h0⟩
  · rw [he]
    match i with
    | 0 => rw [h0]; simp [Geo.mapElem, Elem.rename]
    | 1 => simp [Geo.mapElem, Elem.rename]
    | 2 => simp [Geo.mapElem, Elem.rename]
    | n + 3 => rw [Equiv.swap_apply_of_ne_of_ne (by omega) (by omega)]; rfl
  · rw [hc]
    refine .cons ?_ (.cons ?_ .nil)
    · simp only [Spec.Con.rename, h0, Equiv.swap_apply_left]
      exact .single (.distance 0 2 5)
    · simp only [Spec.Con.rename, h0, Equiv.swap_apply_right]
      exact .single (.distance 1 0 5)
  · rw [hc] at hcon
    simp only [List.mem_cons, List.not_mem_nil, or_false] at hcon
    rcases hcon with rfl | rfl <;> trivial

/-- C90 does not hold with `Decomposer::SinglePass`: the figure is symmetric about the y-axis and the third point is on it; afterwards it is at the fixed point on the left. -/
theorem C90_singlePass_breaks_symmetry (cast : ℝ → Int) {sort : SortByKey} (hsort : Spec.Sorts sort) {ord : HashOrder} (hord : ord.Ok) :
    ∃ c, Reaches 0 tugOps c ∧ NeverJoins ((Store.empty ℝ).run tugOps).arguments ∧
      ((Store.empty ℝ).run tugOps).SameFigure (Geo.turn Real.pi true) (Equiv.swap 0 1) ((Store.empty ℝ).run tugOps) ∧ Equiv.swap 0 1 2 = 2 ∧ ∃ s k x,
        (∀ fuel, k ≤ fuel → c.sys.solve (crateOptimize (qrLeastSquares sort (colamdOfStructure cast)) fuel) ord ⟨.levenbergMarquardt, .singlePass, false⟩ = .ok s) ∧
        s.getValue .point ⟨0, 2⟩ = .ok (.point x 0) ∧ x ≤ -1 := by
  obtain ⟨c, h⟩ := exists_reaches 0 tugOps (by
    simp [tugOps, Store.LegalRun, Store.Legal, Store.empty, Store.step, Store.IsPoint, Store.ConOk, Elem.kind]) (by simp [tugOps])
  obtain ⟨k, y, hk, hy⟩ := tug_pulled cast hsort hord h
  have key : ((Client.new ℝ 0).run tugOps >>= fun c => ({ c.sys with vars := [-2, 0, 2, 0, y, 0, 0, 0] } : System ℝ).getValue .point ⟨0, 2⟩) = .ok (.point y 0) := rfl
  rw [h.run, ok_bind] at key
  refine ⟨c, h, neverJoins_two _ _, tug_symmetric, Equiv.swap_apply_of_ne_of_ne (by omega) (by omega), _, k, y, hk, key, ?_⟩
  have := abs_le_of_sq_le_sq (a := (-2 : ℝ) - y) (b := 1 / 10 ^ 4) (hy.trans (by norm_num)) (by norm_num)
  linarith [(abs_le.1 this).1]

/-- C90 does not hold with perturbation, which is the default: two points in the origin that shall coincide are a figure that does not change in a half-turn; afterwards their first coordinates have a
positive sum, so that one of them is not its own image. -/
theorem C90_default_breaks_symmetry : ∃ c, Reaches 0 originPairOps c ∧ NeverJoins ((Store.empty ℝ).run originPairOps).arguments ∧
    ((Store.empty ℝ).run originPairOps).SameFigure (Geo.turn Real.pi false) (Equiv.refl Nat) ((Store.empty ℝ).run originPairOps) ∧
    ∀ (ls : LeastSquares ℝ) (_ : ls.Safe (fun _ _ _ => True)) (fuel : Nat) (ord : HashOrder), ∃ s', c.sys.solve (crateOptimize ls fuel) ord .default = .ok s' ∧
      ∃ i < 2, ∃ w, s'.getValue .point ⟨0, i⟩ = .ok w ∧ Geo.mapValue (Geo.turn Real.pi false) w ≠ w := by
  obtain ⟨c, h, -, -, -, -, h1⟩ := C86_default_shifts
  have he : ((Store.empty ℝ).run originPairOps).elems = [.point 0 0, .point 0 0, .length 1] := rfl
  refine ⟨c, h, ?_, ⟨fun i => ?_, fun i => .rfl, _, .refl _, List.forall₂_same.2 fun con _ => ?_⟩, fun ls hls fuel ord => ?_⟩
  · intro m l hm i hi j hj ⟨l', hl', _⟩ _
    have ha : ((Store.empty ℝ).run originPairOps).arguments = [[0, 1]] := rfl
    rw [ha] at hm hl'
    have : m = 0 := by have := lt_of_getElem? hm; simpa using this
    subst this
    simp at hl'
  · rw [he]
    match i with
    | 0 => simp [Geo.mapElem, turn_pi, Elem.rename]
    | 1 => simp [Geo.mapElem, turn_pi, Elem.rename]
    | 2 => rfl
    | n + 3 => rfl
  · have : con.rename (Equiv.refl Nat) = con := by cases con <;> rfl
    rw [this]
  · obtain ⟨s', x, y, x', y', h2, h3, h4, h5⟩ := h1 ls hls fuel ord
    refine ⟨s', h2, ?_⟩
    have hne : ∀ a b : ℝ, a ≠ 0 → Geo.mapValue (Geo.turn Real.pi false) (.point a b) ≠ .point a b := by
      intro a b ha hab
      simp only [Geo.mapValue, turn_pi, ElementValue.point.injEq] at hab
      exact ha (by linarith [hab.1])
    by_cases hx : x = 0
    · exact ⟨1, by norm_num, _, h4, hne _ _ (by rintro rfl; rw [hx] at h5; linarith)⟩
    · exact ⟨0, by norm_num, _, h3, hne _ _ hx⟩

end Fiksi
